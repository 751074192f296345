import Verif.FMPC.Init
import Verif.FMPC.L1

/-!
# FMPC: meaning of the NaN check (C60) and of the merit function (C41)
-/

set_option linter.unusedSectionVars false

namespace Nmpc.FMPC

open Finset
open DDP (FDeriv LDeriv VDeriv timeAt)

section Generic
variable {α : Type} [Add α] [Sub α] [Mul α] [Div α] [Neg α] [Zero α] [One α] [FOps α]

/-- Neither NaN nor infinite. -/
def Regular (a : α) : Prop := FOps.isNan a = false ∧ FOps.isInf a = false
/-- All entries are neither NaN nor infinite. -/
def VRegular {k : ℕ} (v : Vec k α) : Prop := ∀ i, Regular (v i)
/-- All entries are neither NaN nor infinite. -/
def MRegular {k l : ℕ} (A : Mat k l α) : Prop := ∀ i j, Regular (A i j)

/-- All data of the linearised problem of one step and its Riccati solution are regular. -/
structure Coeff.Regular {n m p : ℕ} (c : Coeff n m p α) : Prop where
  Fx : MRegular c.F.Fx
  Fu : MRegular c.F.Fu
  C : MRegular c.G.C
  D : MRegular c.G.D
  Lx : VRegular c.L.Lx
  Lu : VRegular c.L.Lu
  Lxx : MRegular c.L.Lxx
  Luu : MRegular c.L.Luu
  Lxu : MRegular c.L.Lxu
  xbar : VRegular c.xbar
  gbar : VRegular c.gbar
  Lxbar : VRegular c.Lxbar
  Lubar : VRegular c.Lubar
  k : VRegular c.k
  K : MRegular c.K
  s : VRegular c.s
  P : MRegular c.P

/-- All entries of a variable are regular. -/
structure Var.Regular {n : ℕ} {m p : ℕ → ℕ} (N : ℕ) (v : Var n m p α) : Prop where
  x : ∀ i ≤ N, VRegular (v.x i)
  u : ∀ i < N, VRegular (v.u i)
  lam : ∀ i ≤ N, VRegular (v.lam i)
  s : ∀ i < N, VRegular (v.s i)
  nu : ∀ i < N, VRegular (v.nu i)

theorem vecBad_iff {k : ℕ} (v : Vec k α) : vecBad v = false ↔ VRegular v := by
  simp [vecBad, VRegular, Nmpc.FMPC.Regular, List.any_eq_false]

theorem matBad_iff {k l : ℕ} (A : Mat k l α) : matBad A = false ↔ MRegular A := by
  have : matBad A = false ↔ ∀ i, vecBad (A i) = false := by simp [matBad, List.any_eq_false]
  rw [this]
  exact forall_congr' fun i => vecBad_iff _

variable {n : ℕ}

theorem Coeff.containsNaN_iff {m p : ℕ} (c : Coeff n m p α) : c.containsNaN = false ↔ c.Regular := by
  unfold Coeff.containsNaN
  simp only [Bool.or_eq_false_iff, vecBad_iff, matBad_iff]
  constructor
  · rintro ⟨⟨⟨⟨⟨⟨⟨⟨⟨⟨⟨⟨⟨⟨⟨⟨a1, a2⟩, a3⟩, a4⟩, a5⟩, a6⟩, a7⟩, a8⟩, a9⟩, a10⟩, a11⟩, a12⟩, a13⟩, a14⟩, a15⟩, a16⟩, a17⟩
    exact ⟨a1, a2, a3, a4, a5, a6, a7, a8, a9, a10, a11, a12, a13, a14, a15, a16, a17⟩
  · rintro ⟨a1, a2, a3, a4, a5, a6, a7, a8, a9, a10, a11, a12, a13, a14, a15, a16, a17⟩
    exact ⟨⟨⟨⟨⟨⟨⟨⟨⟨⟨⟨⟨⟨⟨⟨⟨a1, a2⟩, a3⟩, a4⟩, a5⟩, a6⟩, a7⟩, a8⟩, a9⟩, a10⟩, a11⟩, a12⟩, a13⟩, a14⟩, a15⟩, a16⟩, a17⟩

variable {m p : ℕ → ℕ} {L : GainSolver α} {N : ℕ} {cfg : Config α} {S : Stages n m p α} {x0 : Vec n α}

theorem Var.containsNaN_iff (v : Var n m p α) : v.containsNaN N = false ↔ v.Regular N := by
  unfold Var.containsNaN
  simp only [Bool.or_eq_false_iff, List.any_eq_false, List.mem_range, Nat.lt_succ_iff, Bool.not_eq_true, vecBad_iff]
  constructor
  · rintro ⟨⟨⟨⟨a1, a2⟩, a3⟩, a4⟩, a5⟩; exact ⟨a1, a2, a3, a4, a5⟩
  · rintro ⟨a1, a2, a3, a4, a5⟩; exact ⟨⟨⟨⟨a1, a2⟩, a3⟩, a4⟩, a5⟩

theorem backwardPass_regular (hn : cfg.checkNan = true) {w w2 : Solver n m p α}
    (h : backwardPass L N cfg S w = (true, w2)) : ∀ i < N, (w2.coeff i).Regular := by
  unfold backwardPass at h
  dsimp only at h
  split at h
  · split at h
    · cases h
    · rename_i hh
      cases h
      rw [hn, Bool.true_and, Bool.not_eq_true, Bool.or_eq_false_iff, List.any_eq_false] at hh
      intro i hi
      have := hh.1 i (List.mem_range.2 hi)
      rw [Bool.not_eq_true] at this
      exact (Coeff.containsNaN_iff _).1 this
  · cases h

theorem updateVariables_keep {w : Solver n m p α} {q : Bool × Solver n m p α}
    (h : updateVariables N cfg S x0 w = .ok q) : q.2.coeff = w.coeff ∧ q.2.delta = w.delta := by
  have := updateVariables_out (N := N) (cfg := cfg) (S := S) (x0 := x0) w
  rw [h] at this
  generalize hx : (Res.ok q : Res (Bool × Solver n m p α)) = x at this
  cases this with
  | reject => cases hx; exact ⟨rfl, rfl⟩
  | step => cases hx; exact ⟨rfl, rfl⟩
  | ub => cases hx
  | diverge => cases hx

/-- **C60** (any arithmetic).  With `check_nan`, an iteration that gets as far as updating the variables has coefficients
(derivatives, residuals, gains and value function) and a direction without NaN or infinity. -/
theorem C60_complete (hn : cfg.checkNan = true) {iter : ℕ} {w w' : Solver n m p α} {st : Status}
    (h : procOnce L N cfg S x0 iter w = .ok (w', st)) (hst : st = .iterationContinued ∨ st = .errorInUpdate) :
    (∀ i < N, (w'.coeff i).Regular) ∧ w'.delta.Regular N := by
  have := procOnce_out (L := L) (N := N) (cfg := cfg) (S := S) (x0 := x0) iter w
  rw [h] at this
  generalize hx : (Res.ok (w', st) : Res (Solver n m p α × Status)) = x at this
  cases this with
  | ubEps => cases hx
  | succeeded e he hk => cases hx; rcases hst with h | h <;> cases h
  | backward e he hk hb => cases hx; rcases hst with h | h <;> cases h
  | forward e he hk w2 hb hf => cases hx; rcases hst with h | h <;> cases h
  | update e he hk w2 hb w3 hf r hr =>
    cases r with
    | ok q =>
      obtain ⟨k1, k2⟩ := updateVariables_keep hr
      cases hx
      rw [k1, k2]
      unfold forwardPass at hf
      simp only [Prod.mk.injEq, Bool.not_eq_true', hn, Bool.true_and] at hf
      obtain ⟨f1, rfl⟩ := hf
      exact ⟨backwardPass_regular (w2 := w2) hn hb, (Var.containsNaN_iff _).1 f1⟩
    | _ => cases hx

/-- **C60** (any arithmetic).  `ErrorInForward` means that `check_nan` is set, that the backward pass succeeded and that the direction
contains NaN or infinity; the variables are unchanged. -/
theorem C60_forward {iter : ℕ} {w w' : Solver n m p α}
    (h : procOnce L N cfg S x0 iter w = .ok (w', .errorInForward)) :
    cfg.checkNan = true ∧ (∀ i < N, (w'.coeff i).Regular) ∧ ¬ w'.delta.Regular N ∧ w'.var = w.var := by
  have hv := (procOnce_frame h).choose_spec.2.2.2.1 (by simp)
  have := procOnce_out (L := L) (N := N) (cfg := cfg) (S := S) (x0 := x0) iter w
  rw [h] at this
  generalize hx : (Res.ok (w', .errorInForward) : Res (Solver n m p α × Status)) = x at this
  cases this with
  | ubEps => cases hx
  | succeeded e he hk => cases hx
  | backward e he hk hb => cases hx
  | forward e he hk w2 hb hf =>
    cases hx
    unfold forwardPass at hf
    simp only [Bool.not_eq_false', Bool.and_eq_true] at hf
    refine ⟨hf.1, backwardPass_regular (w2 := w2) hf.1 hb, ?_, hv⟩
    intro hr
    rw [← Var.containsNaN_iff] at hr
    exact absurd (hr.symm.trans hf.2) Bool.false_ne_true
  | update e he hk w2 hb w3 hf r hr =>
    cases r with
    | ok q =>
      obtain ⟨b, w4⟩ := q
      cases b <;> cases hx
    | _ => cases hx

end Generic

/-! ## The merit function -/

section Merit
variable {n : ℕ} {md pd : ℝ → ℕ} {P : Callbacks n md pd} {t0 dt : ℝ}

/-- Sum of the absolute values. -/
def absSum {k : ℕ} (v : Fin k → ℝ) : ℝ := ∑ j, |v j|

/-- The time of step `i`. -/
theorem timeAt_real (i : ℕ) : timeAt t0 dt i = t0 + i * dt := by simp [timeAt]

/-- **C41**, value: the merit function is the cost of the optimal control problem (running costs at the times
`t0 + i dt`, terminal cost at `t0 + N dt`) minus `eps` times the logarithms of the slacks plus `scale` times the sum of the
absolute values of the constraint residuals (initial state, dynamics, inequalities with slacks). -/
theorem C41_value (N : ℕ) (eps scale : ℝ) (x0 : Vec n ℝ)
    (v : Var n (fun i => md (timeAt t0 dt i)) (fun i => pd (timeAt t0 dt i)) ℝ) :
    calcMerit N (stagesOf P t0 dt N) eps x0 scale v =
      (∑ i ∈ range N, dt * P.runningCost (timeAt t0 dt i) (v.x i) (v.u i)) + P.terminalCost (t0 + N * dt) (v.x N)
      - eps * (∑ i ∈ range N, ∑ j, Real.log (v.s i j))
      + scale * (absSum (x0 - v.x 0)
        + ∑ i ∈ range N, (absSum (P.stateEq (timeAt t0 dt i) (v.x i) (v.u i) - v.x (i + 1))
          + absSum (P.ineqConst (timeAt t0 dt i) (v.x i) (v.u i) + v.s i))) := by
  have ho : meritObj N (stagesOf P t0 dt N) eps v =
      (∑ i ∈ range N, dt * P.runningCost (timeAt t0 dt i) (v.x i) (v.u i)) + P.terminalCost (t0 + N * dt) (v.x N)
      - eps * (∑ i ∈ range N, ∑ j, Real.log (v.s i j)) := by
    unfold meritObj
    have : ∀ k, forUp k (fun i a => a + (stagesOf P t0 dt N).l i (v.x i) (v.u i) * (stagesOf P t0 dt N).dt +
        (-1) * eps * FOps.sum fun j => FOps.log (v.s i j)) 0 =
        (∑ i ∈ range k, dt * P.runningCost (timeAt t0 dt i) (v.x i) (v.u i))
          - eps * (∑ i ∈ range k, ∑ j, Real.log (v.s i j)) := by
      intro k
      induction k with
      | zero => simp [forUp]
      | succ k ih =>
        rw [forUp, ih, sum_range_succ, sum_range_succ]
        simp only [stagesOf, sum_real, log_real]
        ring
    rw [this N]
    simp only [stagesOf, timeAt_real]
    ring
  have hc : meritConst N (stagesOf P t0 dt N) x0 v = absSum (x0 - v.x 0)
        + ∑ i ∈ range N, (absSum (P.stateEq (timeAt t0 dt i) (v.x i) (v.u i) - v.x (i + 1))
          + absSum (P.ineqConst (timeAt t0 dt i) (v.x i) (v.u i) + v.s i)) := by
    unfold meritConst
    have : ∀ k, forUp k (fun i a => a + l1norm ((stagesOf P t0 dt N).f i (v.x i) (v.u i) - v.x (i + 1))
        + l1norm ((stagesOf P t0 dt N).g i (v.x i) (v.u i) + v.s i)) (0 + l1norm (x0 - v.x 0)) =
        absSum (x0 - v.x 0)
        + ∑ i ∈ range k, (absSum (P.stateEq (timeAt t0 dt i) (v.x i) (v.u i) - v.x (i + 1))
          + absSum (P.ineqConst (timeAt t0 dt i) (v.x i) (v.u i) + v.s i)) := by
      intro k
      induction k with
      | zero => simp [forUp, l1norm, absSum]
      | succ k ih =>
        rw [forUp, ih, sum_range_succ]
        simp only [stagesOf, l1norm, sum_real, abs_real, absSum]
        ring
    exact this N
  rw [calcMerit, ho, hc]

end Merit

/-! ## Concrete instances -/

/-- Status of the first iteration of the call `callA` for a given measured state. -/
def firstStatus (x0 : XQ) : Option Status :=
  match procOnce diagGain 1 cfgA (stagesOf (simpleProblem 1) (.fin 0) (.fin 1) 1) (fun _ => x0) 1
      (initSolver (initOf 1 0 (-1) 0 0 (-1) 1 1) (.fin 1) (scratchWith 1 [] (.fin 0) (.fin 1))) with
  | .ok q => some q.2
  | _ => none

/-- The hypotheses of `C60_complete` and `C60_forward`: a step, and an infinite measured state. -/
example : cfgA.checkNan = true ∧ firstStatus (.fin 0) = some .iterationContinued ∧
    firstStatus .pinf = some .errorInForward := by
  decide +kernel

end Nmpc.FMPC
