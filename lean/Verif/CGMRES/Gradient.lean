import Verif.CGMRES.Sweep
import Mathlib.Analysis.Calculus.FDeriv.Add
import Mathlib.Analysis.Calculus.FDeriv.Mul
import Mathlib.Analysis.Calculus.FDeriv.Prod
import Mathlib.Analysis.Calculus.FDeriv.Pi
import Mathlib.Analysis.Calculus.FDeriv.Comp
import Mathlib.Analysis.Calculus.FDeriv.Linear
import Mathlib.Topology.Algebra.Module.FiniteDimension

/-!
# The list of `∂H/∂u` as a gradient (C51), in exact arithmetic
-/

namespace Nmpc.Cgmres

open Finset Matrix

variable {n m N : ℕ}

/-! ## Specification -/

/-- Euler states of `x' = f(x, u)` with the step `h`. -/
def eulerState (f : Vec n ℝ → Vec m ℝ → Vec n ℝ) (h : ℝ) (x : Vec n ℝ) (U : ℕ → Vec m ℝ) : ℕ → Vec n ℝ
  | 0 => x
  | i + 1 => eulerState f h x U i + h • f (eulerState f h x U i) (U i)

/-- The discretised cost `φ(x_N) + Σ_i h ℓ(x_i, u_i)` as a function of the inputs. -/
noncomputable def horizonCost (f : Vec n ℝ → Vec m ℝ → Vec n ℝ) (l : Vec n ℝ → Vec m ℝ → ℝ) (φ : Vec n ℝ → ℝ) (h : ℝ) (x : Vec n ℝ)
    (U : Fin N → Vec m ℝ) : ℝ :=
  φ (eulerState f h x (colAt U) N) + ∑ i : Fin N, h * l (eulerState f h x (colAt U) i) (U i)

/-- The callbacks of a time-invariant problem are those of the dynamics `f`, the running cost `l` and the terminal cost `φ`: with the
Hamiltonian `H(x, u, λ) = l(x, u) + λ · f(x, u)`, `costateEquation` is `-∂H/∂x`, `calcDhDu` is `∂H/∂u` and `calcDphiDx` is `∂φ/∂x`. -/
structure Derived (P : Problem n m ℝ) (f : Vec n ℝ → Vec m ℝ → Vec n ℝ) (l : Vec n ℝ → Vec m ℝ → ℝ) (φ : Vec n ℝ → ℝ) : Prop where
  state : ∀ t x u, P.stateEq t x u = f x u
  ham : ∀ t x u lmd, ∃ D : (Vec n ℝ × Vec m ℝ) →L[ℝ] ℝ,
    HasFDerivAt (fun p : Vec n ℝ × Vec m ℝ => l p.1 p.2 + lmd ⬝ᵥ f p.1 p.2) D (x, u) ∧
    ∀ ξ v, D (ξ, v) = -(P.costateEq t lmd (Fin.append x u) ⬝ᵥ ξ) + P.dhdu t x u lmd ⬝ᵥ v
  terminal : ∀ t x, ∃ D : Vec n ℝ →L[ℝ] ℝ, HasFDerivAt φ D x ∧ ∀ ξ, D ξ = P.dphidx t x ⬝ᵥ ξ

/-! ## Proof -/

section
variable {P : Problem n m ℝ} {f : Vec n ℝ → Vec m ℝ → Vec n ℝ} {l : Vec n ℝ → Vec m ℝ → ℝ} {φ : Vec n ℝ → ℝ}

theorem Derived.split (hP : Derived P f l φ) (x : Vec n ℝ) (u : Vec m ℝ) :
    ∃ (f' : (Vec n ℝ × Vec m ℝ) →L[ℝ] Vec n ℝ) (l' : (Vec n ℝ × Vec m ℝ) →L[ℝ] ℝ),
      HasFDerivAt (fun p : Vec n ℝ × Vec m ℝ => f p.1 p.2) f' (x, u) ∧
      HasFDerivAt (fun p : Vec n ℝ × Vec m ℝ => l p.1 p.2) l' (x, u) ∧
      ∀ t lmd ξ v, l' (ξ, v) + lmd ⬝ᵥ f' (ξ, v) = -(P.costateEq t lmd (Fin.append x u) ⬝ᵥ ξ) + P.dhdu t x u lmd ⬝ᵥ v := by
  obtain ⟨l', hl, _⟩ := hP.ham 0 x u 0
  simp only [zero_dotProduct, add_zero] at hl
  have hf : ∀ j, ∃ D : (Vec n ℝ × Vec m ℝ) →L[ℝ] ℝ, HasFDerivAt (fun p : Vec n ℝ × Vec m ℝ => f p.1 p.2 j) D (x, u) := by
    intro j
    obtain ⟨D, hD, _⟩ := hP.ham 0 x u (Pi.single j 1)
    refine ⟨D - l', ?_⟩
    have := hD.sub hl
    refine this.congr_of_eventuallyEq (Filter.Eventually.of_forall fun p => ?_)
    simp
  choose fj hfj using hf
  have hf' : HasFDerivAt (fun p : Vec n ℝ × Vec m ℝ => f p.1 p.2) (ContinuousLinearMap.pi fj) (x, u) :=
    hasFDerivAt_pi.mpr hfj
  refine ⟨ContinuousLinearMap.pi fj, l', hf', hl, ?_⟩
  intro t lmd ξ v
  obtain ⟨D, hD, he⟩ := hP.ham t x u lmd
  rw [← he]
  have h2 : HasFDerivAt (fun p : Vec n ℝ × Vec m ℝ => l p.1 p.2 + lmd ⬝ᵥ f p.1 p.2) (l' + ∑ j, lmd j • fj j) (x, u) := by
    refine hl.add ?_
    unfold dotProduct
    exact HasFDerivAt.fun_sum fun j _ => (hfj j).const_mul (lmd j)
  rw [hD.unique h2]
  simp [dotProduct]

theorem eulerState_eq (hP : Derived P f l φ) (h t : ℝ) (x : Vec n ℝ) (U : Fin N → Vec m ℝ) (i : ℕ) :
    states P eulerOde h t x U i = eulerState f h x (colAt U) i := by
  induction i with
  | zero => rfl
  | succ i ih =>
    rw [states_succ, ih]
    change euler _ _ _ _ _ = _
    rw [euler_real, hP.state]
    rfl

/-- **C51.**  With Euler integration and a time-invariant problem whose costate equation, `∂H/∂u` and terminal costate are those of the
Hamiltonian, the list computed by `calcDhDuList`, scaled by the step, is the gradient of the discretised cost over the horizon: the
derivative in the direction `V` is `Σ_i h DhDu_i · V_i`. -/
theorem C51_gradient (hP : Derived P f l φ) (cfg : Config ℝ) (t : ℝ) (x : Vec n ℝ) (U : Fin N → Vec m ℝ) :
    let h := cfg.steadyHorizon * (1 - Real.exp (-(cfg.increaseRatio * t))) / N
    ∃ D : (Fin N → Vec m ℝ) →L[ℝ] ℝ, HasFDerivAt (horizonCost f l φ h x) D U ∧
      ∀ V, D V = ∑ i, h * (dhduList P eulerOde cfg t x U i ⬝ᵥ V i) := by
  intro h
  have hh : horizonStep cfg N t = h := by simp [h, horizonStep, horizonDuration, neg_mul]
  -- derivatives of the states
  have hcol : ∀ i, ∃ C : (Fin N → Vec m ℝ) →L[ℝ] Vec m ℝ,
      HasFDerivAt (fun U : Fin N → Vec m ℝ => colAt U i) C U ∧ ∀ V, C V = colAt V i := by
    intro i
    by_cases hi : i < N
    · refine ⟨ContinuousLinearMap.proj ⟨i, hi⟩, ?_, fun V => by simp [colAt, hi]⟩
      simp only [colAt, hi, dif_pos]
      exact (ContinuousLinearMap.proj (R := ℝ) (φ := fun _ : Fin N => Vec m ℝ) ⟨i, hi⟩).hasFDerivAt
    · refine ⟨0, ?_, fun V => by simp [colAt, hi]; rfl⟩
      simp only [colAt, hi, dif_neg, not_false_eq_true]
      exact hasFDerivAt_const _ _
  choose C hC hCV using hcol
  choose f' l' hf' hl' hH using hP.split
  set X : ℕ → Vec n ℝ := fun i => eulerState f h x (colAt U) i with hX
  have hstate : ∀ i, ∃ X' : (Fin N → Vec m ℝ) →L[ℝ] Vec n ℝ,
      HasFDerivAt (fun U : Fin N → Vec m ℝ => eulerState f h x (colAt U) i) X' U := by
    intro i
    induction i with
    | zero => exact ⟨0, hasFDerivAt_const _ _⟩
    | succ i ih =>
      obtain ⟨X', hX'⟩ := ih
      refine ⟨X' + h • (f' (X i) (colAt U i)).comp (X'.prod (C i)), ?_⟩
      have hp := hX'.prodMk (hC i)
      have hc : HasFDerivAt (fun U : Fin N → Vec m ℝ => f (eulerState f h x (colAt U) i) (colAt U i))
          ((f' (X i) (colAt U i)).comp (X'.prod (C i))) U :=
        HasFDerivAt.comp (g := fun p : Vec n ℝ × Vec m ℝ => f p.1 p.2)
          (f := fun U : Fin N → Vec m ℝ => (eulerState f h x (colAt U) i, colAt U i)) U (hf' _ _) hp
      exact hX'.add (hc.const_smul h)
  choose X' hX' using hstate
  have hX0 : X' 0 = 0 := (hX' 0).unique (hasFDerivAt_const _ _)
  have hXs : ∀ i V, X' (i + 1) V = X' i V + h • f' (X i) (colAt U i) (X' i V, colAt V i) := by
    intro i V
    have hc : HasFDerivAt (fun U : Fin N → Vec m ℝ => f (eulerState f h x (colAt U) i) (colAt U i))
        ((f' (X i) (colAt U i)).comp ((X' i).prod (C i))) U :=
      HasFDerivAt.comp (g := fun p : Vec n ℝ × Vec m ℝ => f p.1 p.2)
        (f := fun U : Fin N → Vec m ℝ => (eulerState f h x (colAt U) i, colAt U i)) U (hf' _ _) ((hX' i).prodMk (hC i))
    have h2 : HasFDerivAt (fun U : Fin N → Vec m ℝ => eulerState f h x (colAt U) (i + 1))
        (X' i + h • (f' (X i) (colAt U i)).comp ((X' i).prod (C i))) U := (hX' i).add (hc.const_smul h)
    rw [(hX' (i + 1)).unique h2]
    simp [hCV]
  have hlast : ∀ i : Fin N, HasFDerivAt (fun U : Fin N → Vec m ℝ => h * l (eulerState f h x (colAt U) i) (U i))
      (h • (l' (X i) (colAt U i)).comp ((X' i).prod (C i))) U := by
    intro i
    have hc : HasFDerivAt (fun U : Fin N → Vec m ℝ => l (eulerState f h x (colAt U) i) (colAt U i))
        ((l' (X i) (colAt U i)).comp ((X' i).prod (C i))) U :=
      HasFDerivAt.comp (g := fun p : Vec n ℝ × Vec m ℝ => l p.1 p.2)
        (f := fun U : Fin N → Vec m ℝ => (eulerState f h x (colAt U) i, colAt U i)) U (hl' _ _) ((hX' i).prodMk (hC i))
    have := hc.const_mul h
    refine this.congr_of_eventuallyEq (Filter.Eventually.of_forall fun W => ?_)
    simp [colAt]
  -- the costates
  set lam : ℕ → Vec n ℝ := costates P eulerOde h t x U with hlam
  have hXst : ∀ i, states P eulerOde h t x U i = X i := fun i => eulerState_eq hP h t x U i
  obtain ⟨φ', hφ, hφe⟩ := hP.terminal (t + N * h) (X N)
  have hφN : ∀ ξ, φ' ξ = lam N ⬝ᵥ ξ := by
    intro ξ
    rw [hφe, hlam, costates_last, hXst]
  have hlstep : ∀ i < N, lam i = lam (i + 1)
      - h • P.costateEq (t + (i + 1 : ℕ) * h) (lam (i + 1)) (Fin.append (X i) (colAt U i)) := by
    intro i hi
    rw [hlam, costates_step P eulerOde h t x U hi, hXst]
    change euler _ _ _ _ _ = _
    rw [euler_real, neg_smul, sub_eq_add_neg]
  have hD : ∀ i : Fin N, dhduList P eulerOde cfg t x U i = P.dhdu (t + (i : ℕ) * h) (X i) (colAt U i) (lam (i + 1)) := by
    intro i
    rw [dhduList_eq, hh, hXst, show colAt U i = U i by simp [colAt]]
  -- the time does not matter
  have hti : ∀ s t lmd (y : Vec n ℝ) (u : Vec m ℝ) (v : Vec m ℝ), P.dhdu s y u lmd ⬝ᵥ v = P.dhdu t y u lmd ⬝ᵥ v := by
    intro s t lmd y u v
    have h1 := hH y u s lmd 0 v
    have h2 := hH y u t lmd 0 v
    simp only [dotProduct_zero, neg_zero, zero_add] at h1 h2
    rw [← h1, ← h2]
  refine ⟨φ'.comp (X' N) + ∑ i : Fin N, h • (l' (X i) (colAt U i)).comp ((X' i).prod (C i)), ?_, ?_⟩
  · unfold horizonCost
    refine HasFDerivAt.add ?_ (HasFDerivAt.fun_sum fun i _ => hlast i)
    exact HasFDerivAt.comp (g := φ) (f := fun U : Fin N → Vec m ℝ => eulerState f h x (colAt U) N) U hφ (hX' N)
  · intro V
    -- telescoping
    have tel : ∀ k ≤ N, lam k ⬝ᵥ X' k V = ∑ i ∈ range k,
        (h * (P.dhdu (t + (i : ℕ) * h) (X i) (colAt U i) (lam (i + 1)) ⬝ᵥ colAt V i)
          - h * l' (X i) (colAt U i) (X' i V, colAt V i)) := by
      intro k
      induction k with
      | zero => intro _; simp [hX0]
      | succ k ih =>
        intro hk
        rw [sum_range_succ, ← ih (by omega), hXs, dotProduct_add, dotProduct_smul, smul_eq_mul]
        rw [hlstep k (by omega), sub_dotProduct, smul_dotProduct, smul_eq_mul]
        have := hH (X k) (colAt U k) (t + (k + 1 : ℕ) * h) (lam (k + 1)) (X' k V) (colAt V k)
        rw [hti _ (t + (k : ℕ) * h)] at this
        linear_combination h * this
    have hN := tel N le_rfl
    rw [← hφN, sum_range] at hN
    simp only [_root_.add_apply, ContinuousLinearMap.comp_apply, _root_.sum_apply,
      _root_.smul_apply, ContinuousLinearMap.prod_apply, smul_eq_mul, hCV]
    rw [hN, ← sum_add_distrib]
    refine sum_congr rfl fun i _ => ?_
    rw [hD, show colAt V i = V i by simp [colAt]]
    ring

end

end Nmpc.Cgmres
