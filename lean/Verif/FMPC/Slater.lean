import Verif.FMPC.Optimal
import Mathlib.Analysis.Normed.Group.Constructions

/-!
# FMPC: bounds on the multipliers from a strictly feasible trajectory (helper lemmas for C140)

The states of a point with small KKT residuals do not follow the dynamics exactly.  They are compared with trajectories that have
the same defects, so that the costates drop out of the duality bound; what remains is controlled by a strictly feasible trajectory.
-/

set_option linter.unusedSectionVars false

namespace Nmpc.FMPC

open DDP (FDeriv LDeriv VDeriv timeAt)
open Matrix Finset

section Norms

theorem mulVec_norm_le {a b : ℕ} (A : Mat a b ℝ) : ∃ c, 0 ≤ c ∧ ∀ x : Vec b ℝ, ‖A *ᵥ x‖ ≤ c * ‖x‖ := by
  have hc : 0 ≤ ∑ i, ∑ j, |A i j| := sum_nonneg fun _ _ => sum_nonneg fun _ _ => abs_nonneg _
  refine ⟨_, hc, fun x => ?_⟩
  rw [pi_norm_le_iff_of_nonneg (mul_nonneg hc (norm_nonneg _))]
  intro i
  rw [Real.norm_eq_abs]
  calc |∑ j, A i j * x j| ≤ ∑ j, |A i j * x j| := abs_sum_le_sum_abs _ _
    _ ≤ ∑ j, |A i j| * ‖x‖ := sum_le_sum fun j _ => by
        rw [abs_mul]
        exact mul_le_mul_of_nonneg_left (norm_le_pi_norm x j) (abs_nonneg _)
    _ = (∑ j, |A i j|) * ‖x‖ := by rw [sum_mul]
    _ ≤ _ := mul_le_mul_of_nonneg_right
        (single_le_sum (f := fun i => ∑ j, |A i j|) (fun i _ => sum_nonneg fun j _ => abs_nonneg _) (mem_univ i)) (norm_nonneg _)

theorem l1_le_norm {k : ℕ} (x : Vec k ℝ) : l1 x ≤ k * ‖x‖ := by
  have : l1 x ≤ ∑ _j : Fin k, ‖x‖ := sum_le_sum fun j _ => norm_le_pi_norm x j
  rwa [sum_const, card_univ, Fintype.card_fin, nsmul_eq_mul] at this

theorem dot_le_norm {k : ℕ} (a x : Vec k ℝ) : -(l1 a * ‖x‖) ≤ a ⬝ᵥ x := by
  have := dot_bound' (r := x) (d := a) (tol := ‖x‖) (norm_le_pi_norm x)
  rwa [mul_comm] at this

theorem norm_le_of_abs {k : ℕ} {x : Vec k ℝ} {c : ℝ} (hc : 0 ≤ c) (h : ∀ j, |x j| ≤ c) : ‖x‖ ≤ c :=
  (pi_norm_le_iff_of_nonneg hc).2 h

/-- Bounds that hold up to every index have a common bound. -/
theorem uniform_bound {Q : ℕ → ℝ → Prop} (hQ : ∀ i a b, a ≤ b → Q i a → Q i b) (h : ∀ i, ∃ K, 0 ≤ K ∧ Q i K) (N : ℕ) :
    ∃ K, 0 ≤ K ∧ ∀ i ≤ N, Q i K := by
  choose K hK hq using h
  refine ⟨∑ i ∈ range (N + 1), K i, sum_nonneg fun i _ => hK i, fun i hi => hQ i _ _ ?_ (hq i)⟩
  exact single_le_sum (f := K) (fun i _ => hK i) (mem_range.2 (Nat.lt_succ_of_le hi))

end Norms

section Roll
variable {n : ℕ} {md pd : ℝ → ℕ} {P : Callbacks n md pd} {t0 dt : ℝ} {x0 : Vec n ℝ} {N : ℕ}

/-- The states that the inputs `z` lead to. -/
noncomputable def rollOut (P : Callbacks n md pd) (t0 dt : ℝ) (x0 : Vec n ℝ) (z : (i : ℕ) → Vec (md (timeAt t0 dt i)) ℝ) :
    ℕ → Vec n ℝ
  | 0 => x0
  | i + 1 => P.stateEq (timeAt t0 dt i) (rollOut P t0 dt x0 z i) (z i)

theorem FeasibleTraj.eq_rollOut {y : ℕ → Vec n ℝ} {z : (i : ℕ) → Vec (md (timeAt t0 dt i)) ℝ} (h : FeasibleTraj P t0 dt x0 N y z) :
    ∀ i ≤ N, y i = rollOut P t0 dt x0 z i := by
  intro i
  induction i with
  | zero => intro _; exact h.init
  | succ i ih => intro hi; rw [h.dyn i hi, ih (by omega)]; rfl

theorem trajCost_congr {x y : ℕ → Vec n ℝ} {z : (i : ℕ) → Vec (md (timeAt t0 dt i)) ℝ} (h : ∀ i ≤ N, x i = y i) :
    trajCost P t0 dt N x z = trajCost P t0 dt N y z := by
  unfold trajCost
  rw [h N le_rfl]
  congr 1
  exact sum_congr rfl fun i hi => by rw [h i (mem_range.1 hi).le]

theorem ConvexProblem.affine (hP : ConvexProblem P) (t : ℝ) : ∃ (A : Mat n n ℝ) (B : Mat n (md t) ℝ), ∀ x u x' u',
    P.stateEq t x' u' - P.stateEq t x u = A *ᵥ (x' - x) + B *ᵥ (u' - u) := by
  refine ⟨(P.stateEqDeriv t 0 0 ⟨0, 0⟩).Fx, (P.stateEqDeriv t 0 0 ⟨0, 0⟩).Fu, fun x u x' u' => ?_⟩
  have h1 := hP.dyn t 0 0 x u ⟨0, 0⟩
  have h2 := hP.dyn t 0 0 x' u' ⟨0, 0⟩
  have h3 : P.stateEq t x' u' - P.stateEq t x u = (P.stateEq t x' u' - P.stateEq t 0 0) - (P.stateEq t x u - P.stateEq t 0 0) := by abel
  rw [h3, h1, h2]
  simp only [sub_zero, mulVec_sub]
  abel

/-- The states follow the dynamics up to `tol`. -/
def NearTraj (P : Callbacks n md pd) (t0 dt : ℝ) (x0 : Vec n ℝ) (N : ℕ) (tol : ℝ) (x : ℕ → Vec n ℝ)
    (u : (i : ℕ) → Vec (md (timeAt t0 dt i)) ℝ) : Prop :=
  (∀ j, |x0 j - x 0 j| ≤ tol) ∧ ∀ i < N, ∀ j, |P.stateEq (timeAt t0 dt i) (x i) (u i) j - x (i + 1) j| ≤ tol

theorem near_close_all (hP : ConvexProblem P) (N : ℕ) : ∃ K, 0 ≤ K ∧ ∀ i ≤ N, ∀ (x0 : Vec n ℝ) (x : ℕ → Vec n ℝ)
    (u : (i : ℕ) → Vec (md (timeAt t0 dt i)) ℝ) (tol : ℝ), 0 ≤ tol → NearTraj P t0 dt x0 N tol x u →
    ‖x i - rollOut P t0 dt x0 u i‖ ≤ K * tol := by
  have key : ∀ i, ∃ K, 0 ≤ K ∧ (i ≤ N → ∀ (x0 : Vec n ℝ) (x : ℕ → Vec n ℝ)
    (u : (i : ℕ) → Vec (md (timeAt t0 dt i)) ℝ) (tol : ℝ), 0 ≤ tol → NearTraj P t0 dt x0 N tol x u →
    ‖x i - rollOut P t0 dt x0 u i‖ ≤ K * tol) := by
    intro i
    induction i with
    | zero =>
      refine ⟨1, zero_le_one, fun _ x0 x u tol h0 h => ?_⟩
      rw [one_mul]
      refine norm_le_of_abs h0 fun j => ?_
      have := h.1 j
      rw [abs_sub_comm] at this
      exact this
    | succ i ih =>
      obtain ⟨K, hK, hi⟩ := ih
      obtain ⟨A, B, hA⟩ := hP.affine (timeAt t0 dt i)
      obtain ⟨c, hc, hcA⟩ := mulVec_norm_le A
      refine ⟨c * K + 1, by positivity, fun hiN x0 x u tol h0 h => ?_⟩
      have h1 := hi (by omega) x0 x u tol h0 h
      have h2 : x (i + 1) - rollOut P t0 dt x0 u (i + 1) = A *ᵥ (x i - rollOut P t0 dt x0 u i) -
          (P.stateEq (timeAt t0 dt i) (x i) (u i) - x (i + 1)) := by
        have := hA (rollOut P t0 dt x0 u i) (u i) (x i) (u i)
        rw [sub_self, mulVec_zero, add_zero] at this
        rw [← this]
        show x (i + 1) - P.stateEq (timeAt t0 dt i) (rollOut P t0 dt x0 u i) (u i) = _
        abel
      have h3 : ‖P.stateEq (timeAt t0 dt i) (x i) (u i) - x (i + 1)‖ ≤ tol := norm_le_of_abs h0 (h.2 i hiN)
      rw [h2]
      have h4 := norm_sub_le (A *ᵥ (x i - rollOut P t0 dt x0 u i)) (P.stateEq (timeAt t0 dt i) (x i) (u i) - x (i + 1))
      have h5 := hcA (x i - rollOut P t0 dt x0 u i)
      have h6 := mul_le_mul_of_nonneg_left h1 hc
      nlinarith
  obtain ⟨K, hK, h⟩ := uniform_bound (Q := fun i K => i ≤ N → ∀ (x0 : Vec n ℝ) (x : ℕ → Vec n ℝ)
    (u : (i : ℕ) → Vec (md (timeAt t0 dt i)) ℝ) (tol : ℝ), 0 ≤ tol → NearTraj P t0 dt x0 N tol x u →
    ‖x i - rollOut P t0 dt x0 u i‖ ≤ K * tol)
    (fun i a b hab h hi x0 x u tol h0 hn => (h hi x0 x u tol h0 hn).trans (mul_le_mul_of_nonneg_right hab h0)) key N
  exact ⟨K, hK, fun i hi => h i hi hi⟩

theorem near_close (hP : ConvexProblem P) (x0 : Vec n ℝ) (N : ℕ) : ∃ K, 0 ≤ K ∧ ∀ i ≤ N, ∀ (x : ℕ → Vec n ℝ)
    (u : (i : ℕ) → Vec (md (timeAt t0 dt i)) ℝ) (tol : ℝ), 0 ≤ tol → NearTraj P t0 dt x0 N tol x u →
    ‖x i - rollOut P t0 dt x0 u i‖ ≤ K * tol := by
  obtain ⟨K, hK, h⟩ := near_close_all (t0 := t0) (dt := dt) hP N
  exact ⟨K, hK, fun i hi => h i hi x0⟩

theorem roll_bounded_ball (hP : ConvexProblem P) (N : ℕ) {r0 R : ℝ} (hr0 : 0 ≤ r0) (hR : 0 ≤ R) : ∃ ρ, 0 ≤ ρ ∧ ∀ i ≤ N,
    ∀ (x0 : Vec n ℝ) (u : (i : ℕ) → Vec (md (timeAt t0 dt i)) ℝ), ‖x0‖ ≤ r0 → (∀ i < N, ‖u i‖ ≤ R) → ‖rollOut P t0 dt x0 u i‖ ≤ ρ := by
  have key : ∀ i, ∃ ρ, 0 ≤ ρ ∧ (i ≤ N → ∀ (x0 : Vec n ℝ) (u : (i : ℕ) → Vec (md (timeAt t0 dt i)) ℝ), ‖x0‖ ≤ r0 → (∀ i < N, ‖u i‖ ≤ R) →
      ‖rollOut P t0 dt x0 u i‖ ≤ ρ) := by
    intro i
    induction i with
    | zero => exact ⟨r0, hr0, fun _ _ _ h _ => h⟩
    | succ i ih =>
      obtain ⟨ρ, hρ, hi⟩ := ih
      obtain ⟨A, B, hA⟩ := hP.affine (timeAt t0 dt i)
      obtain ⟨a, ha, haA⟩ := mulVec_norm_le A
      obtain ⟨b, hb, hbB⟩ := mulVec_norm_le B
      refine ⟨a * ρ + b * R + ‖P.stateEq (timeAt t0 dt i) 0 0‖, by positivity, fun hiN x0 u hx0 hu => ?_⟩
      have h1 := hi (by omega) x0 u hx0 hu
      have h2 := hA 0 0 (rollOut P t0 dt x0 u i) (u i)
      rw [sub_zero, sub_zero] at h2
      have h3 : rollOut P t0 dt x0 u (i + 1) = A *ᵥ rollOut P t0 dt x0 u i + B *ᵥ u i + P.stateEq (timeAt t0 dt i) 0 0 := by
        rw [← h2, sub_add_cancel]; rfl
      rw [h3]
      have h4 := norm_add₃_le (a := A *ᵥ rollOut P t0 dt x0 u i) (b := B *ᵥ u i) (c := P.stateEq (timeAt t0 dt i) 0 0)
      have h5 := haA (rollOut P t0 dt x0 u i)
      have h6 := hbB (u i)
      have h7 := mul_le_mul_of_nonneg_left h1 ha
      have h8 := mul_le_mul_of_nonneg_left (hu i hiN) hb
      linarith
  obtain ⟨K, hK, h⟩ := uniform_bound (Q := fun i ρ => i ≤ N → ∀ (x0 : Vec n ℝ) (u : (i : ℕ) → Vec (md (timeAt t0 dt i)) ℝ), ‖x0‖ ≤ r0 → (∀ i < N, ‖u i‖ ≤ R) →
      ‖rollOut P t0 dt x0 u i‖ ≤ ρ)
    (fun i a b hab h hi x0 u hx0 hu => (h hi x0 u hx0 hu).trans hab) key N
  exact ⟨K, hK, fun i hi => h i hi hi⟩

theorem roll_bounded (hP : ConvexProblem P) (x0 : Vec n ℝ) (N : ℕ) {R : ℝ} (hR : 0 ≤ R) : ∃ ρ, 0 ≤ ρ ∧ ∀ i ≤ N,
    ∀ (u : (i : ℕ) → Vec (md (timeAt t0 dt i)) ℝ), (∀ i < N, ‖u i‖ ≤ R) → ‖rollOut P t0 dt x0 u i‖ ≤ ρ := by
  obtain ⟨ρ, hρ, h⟩ := roll_bounded_ball (t0 := t0) (dt := dt) hP N (norm_nonneg x0) hR
  exact ⟨ρ, hρ, fun i hi u hu => h i hi x0 u le_rfl hu⟩

/-- Between two input sequences the states are between the two trajectories. -/
theorem roll_mix (hP : ConvexProblem P) (z w : (i : ℕ) → Vec (md (timeAt t0 dt i)) ℝ) (θ : ℝ) (i : ℕ) :
    rollOut P t0 dt x0 (fun i => z i + θ • (w i - z i)) i =
      rollOut P t0 dt x0 z i + θ • (rollOut P t0 dt x0 w i - rollOut P t0 dt x0 z i) := by
  induction i with
  | zero => simp [rollOut]
  | succ i ih =>
    obtain ⟨A, B, hA⟩ := hP.affine (timeAt t0 dt i)
    simp only [rollOut]
    rw [ih]
    have h1 := hA (rollOut P t0 dt x0 z i) (z i) (rollOut P t0 dt x0 z i + θ • (rollOut P t0 dt x0 w i - rollOut P t0 dt x0 z i))
      (z i + θ • (w i - z i))
    rw [add_sub_cancel_left, add_sub_cancel_left, mulVec_smul, mulVec_smul, ← smul_add, ← hA] at h1
    rw [← h1]
    abel

/-- The running cost grows at least quadratically in the input above its tangents. -/
def StrongCost (P : Callbacks n md pd) (μ : ℝ) : Prop :=
  ∀ t x u x' u' b, P.runningCost t x u + ((P.runningCostDeriv t x u b).Lx ⬝ᵥ (x' - x) +
    (P.runningCostDeriv t x u b).Lu ⬝ᵥ (u' - u)) + μ / 2 * ((u' - u) ⬝ᵥ (u' - u)) ≤ P.runningCost t x' u'

theorem ConvexProblem.strong0 (hP : ConvexProblem P) : StrongCost P 0 := by
  intro t x u x' u' b
  have := hP.cost t x u x' u' b
  linarith

theorem run_mix {μ : ℝ} (hμ : StrongCost P μ) {t θ : ℝ} (h0 : 0 ≤ θ) (h1 : θ ≤ 1) (x x' : Vec n ℝ) (u u' : Vec (md t) ℝ) :
    P.runningCost t (x + θ • (x' - x)) (u + θ • (u' - u)) ≤ (1 - θ) * P.runningCost t x u + θ * P.runningCost t x' u' -
      θ * (1 - θ) * (μ / 2) * ((u' - u) ⬝ᵥ (u' - u)) := by
  have a := hμ t (x + θ • (x' - x)) (u + θ • (u' - u)) x u ⟨0, 0, 0, 0, 0⟩
  have b := hμ t (x + θ • (x' - x)) (u + θ • (u' - u)) x' u' ⟨0, 0, 0, 0, 0⟩
  have e1 : ∀ {k : ℕ} (y y' : Vec k ℝ), y - (y + θ • (y' - y)) = -(θ • (y' - y)) := fun y y' => by abel
  have e2 : ∀ {k : ℕ} (y y' : Vec k ℝ), y' - (y + θ • (y' - y)) = (1 - θ) • (y' - y) := fun y y' => by module
  rw [e1, e1, dotProduct_neg, dotProduct_neg, dotProduct_smul, dotProduct_smul, neg_dotProduct, dotProduct_neg, neg_neg, smul_dotProduct,
    dotProduct_smul] at a
  rw [e2, e2, dotProduct_smul, dotProduct_smul, smul_dotProduct, dotProduct_smul] at b
  simp only [smul_eq_mul] at a b
  have a' := mul_le_mul_of_nonneg_left a (sub_nonneg.2 h1)
  have b' := mul_le_mul_of_nonneg_left b h0
  linear_combination a' + b'

theorem term_mix (hP : ConvexProblem P) {t θ : ℝ} (h0 : 0 ≤ θ) (h1 : θ ≤ 1) (x x' : Vec n ℝ) :
    P.terminalCost t (x + θ • (x' - x)) ≤ (1 - θ) * P.terminalCost t x + θ * P.terminalCost t x' := by
  have a := hP.term t (x + θ • (x' - x)) x ⟨0, 0⟩
  have b := hP.term t (x + θ • (x' - x)) x' ⟨0, 0⟩
  have e1 : ∀ {k : ℕ} (y y' : Vec k ℝ), y - (y + θ • (y' - y)) = -(θ • (y' - y)) := fun y y' => by abel
  have e2 : ∀ {k : ℕ} (y y' : Vec k ℝ), y' - (y + θ • (y' - y)) = (1 - θ) • (y' - y) := fun y y' => by module
  rw [e1, dotProduct_neg, dotProduct_smul] at a
  rw [e2, dotProduct_smul] at b
  simp only [smul_eq_mul] at a b
  have a' := mul_le_mul_of_nonneg_left a (sub_nonneg.2 h1)
  have b' := mul_le_mul_of_nonneg_left b h0
  linear_combination a' + b'

theorem ineq_mix (hP : ConvexProblem P) {t θ : ℝ} (h0 : 0 ≤ θ) (h1 : θ ≤ 1) (x x' : Vec n ℝ) (u u' : Vec (md t) ℝ) (j : Fin (pd t)) :
    P.ineqConst t (x + θ • (x' - x)) (u + θ • (u' - u)) j ≤ (1 - θ) * P.ineqConst t x u j + θ * P.ineqConst t x' u' j := by
  have a := hP.ineq t (x + θ • (x' - x)) (u + θ • (u' - u)) x u ⟨0, 0⟩ j
  have b := hP.ineq t (x + θ • (x' - x)) (u + θ • (u' - u)) x' u' ⟨0, 0⟩ j
  have e1 : ∀ {k : ℕ} (y y' : Vec k ℝ), y - (y + θ • (y' - y)) = -(θ • (y' - y)) := fun y y' => by abel
  have e2 : ∀ {k : ℕ} (y y' : Vec k ℝ), y' - (y + θ • (y' - y)) = (1 - θ) • (y' - y) := fun y y' => by module
  rw [e1, e1, mulVec_neg, mulVec_neg, mulVec_smul, mulVec_smul] at a
  rw [e2, e2, mulVec_smul, mulVec_smul] at b
  simp only [Pi.neg_apply, Pi.smul_apply, smul_eq_mul] at a b
  have a' := mul_le_mul_of_nonneg_left a (sub_nonneg.2 h1)
  have b' := mul_le_mul_of_nonneg_left b h0
  linear_combination a' + b'

/-- The total cost between two input sequences. -/
theorem cost_mix (hP : ConvexProblem P) {μ : ℝ} (hμ : StrongCost P μ) (hdt : 0 ≤ dt) {θ : ℝ} (h0 : 0 ≤ θ) (h1 : θ ≤ 1)
    (z w : (i : ℕ) → Vec (md (timeAt t0 dt i)) ℝ) :
    trajCost P t0 dt N (rollOut P t0 dt x0 fun i => z i + θ • (w i - z i)) (fun i => z i + θ • (w i - z i)) ≤
      (1 - θ) * trajCost P t0 dt N (rollOut P t0 dt x0 z) z + θ * trajCost P t0 dt N (rollOut P t0 dt x0 w) w -
      θ * (1 - θ) * (dt * μ / 2) * ∑ i ∈ range N, (w i - z i) ⬝ᵥ (w i - z i) := by
  unfold trajCost
  have hs : ∑ i ∈ range N, dt * P.runningCost (timeAt t0 dt i) (rollOut P t0 dt x0 (fun i => z i + θ • (w i - z i)) i)
      (z i + θ • (w i - z i)) ≤ ∑ i ∈ range N, ((1 - θ) * (dt * P.runningCost (timeAt t0 dt i) (rollOut P t0 dt x0 z i) (z i)) +
        θ * (dt * P.runningCost (timeAt t0 dt i) (rollOut P t0 dt x0 w i) (w i)) -
        θ * (1 - θ) * (dt * μ / 2) * ((w i - z i) ⬝ᵥ (w i - z i))) := by
    refine sum_le_sum fun i _ => ?_
    rw [roll_mix hP]
    have := mul_le_mul_of_nonneg_left (run_mix hμ h0 h1 (rollOut P t0 dt x0 z i) (rollOut P t0 dt x0 w i) (z i) (w i)) hdt
    linarith
  have ht := term_mix hP (t := timeAt t0 dt N) h0 h1 (rollOut P t0 dt x0 z N) (rollOut P t0 dt x0 w N)
  rw [roll_mix hP z w θ N]
  rw [sum_sub_distrib, sum_add_distrib] at hs
  simp only [← mul_sum] at hs ⊢
  linarith

/-- Costs and constraint functions are Lipschitz in the state on bounded sets. -/
def LocLip (P : Callbacks n md pd) (t0 dt : ℝ) (N : ℕ) : Prop :=
  ∀ R : ℝ, ∃ K, 0 ≤ K ∧ (∀ i < N, ∀ (x x' : Vec n ℝ) (u : Vec (md (timeAt t0 dt i)) ℝ), ‖x‖ ≤ R → ‖x'‖ ≤ R → ‖u‖ ≤ R →
      |P.runningCost (timeAt t0 dt i) x' u - P.runningCost (timeAt t0 dt i) x u| ≤ K * ‖x' - x‖ ∧
      ∀ j, |P.ineqConst (timeAt t0 dt i) x' u j - P.ineqConst (timeAt t0 dt i) x u j| ≤ K * ‖x' - x‖) ∧
    ∀ x x' : Vec n ℝ, ‖x‖ ≤ R → ‖x'‖ ≤ R →
      |P.terminalCost (timeAt t0 dt N) x' - P.terminalCost (timeAt t0 dt N) x| ≤ K * ‖x' - x‖

/-- One stage of the Lagrangian bound. -/
theorem stage_lagrange {k q : ℕ} {lx lx' dtr : ℝ} {dx dx' lam lam' Lx : Vec n ℝ} {du Lu : Vec k ℝ} {s nu e gy gv : Vec q ℝ}
    {Fx : Mat n n ℝ} {Fu : Mat n k ℝ} {C : Mat q n ℝ} {D : Mat q k ℝ} {tol : ℝ} (hdt : 0 ≤ dtr)
    (hc : lx + (Lx ⬝ᵥ dx + Lu ⬝ᵥ du) ≤ lx') (hdyn : Fx *ᵥ dx + Fu *ᵥ du = dx')
    (hineq : ∀ j, gv j + ((C *ᵥ dx) j + (D *ᵥ du) j) ≤ gy j)
    (hnu : ∀ j, 0 ≤ nu j) (he : ∀ j, gv j + s j = e j)
    (hE : ∀ j, |e j| ≤ tol) (hsn : ∀ j, s j * nu j ≤ tol)
    (hx : ∀ j, |- lam j + dtr * Lx j + (∑ r, Fx r j * lam' r) + ∑ r, C r j * nu r| ≤ tol)
    (hu : ∀ j, |dtr * Lu j + (∑ r, Fu r j * lam' r) + ∑ r, D r j * nu r| ≤ tol) :
    dtr * lx + (lam ⬝ᵥ dx - lam' ⬝ᵥ dx') - tol * (l1 dx + l1 du + l1 nu + q) ≤ dtr * lx' + nu ⬝ᵥ gy := by
  have e1 : (fun j => - lam j + dtr * Lx j + (∑ r, Fx r j * lam' r) + ∑ r, C r j * nu r) ⬝ᵥ dx
      = - (lam ⬝ᵥ dx) + dtr * (Lx ⬝ᵥ dx) + lam' ⬝ᵥ (Fx *ᵥ dx) + nu ⬝ᵥ (C *ᵥ dx) := by
    have a1 : (fun j => - lam j + dtr * Lx j + (∑ r, Fx r j * lam' r) + ∑ r, C r j * nu r)
        = - lam + dtr • Lx + lam' ᵥ* Fx + nu ᵥ* C := by
      funext j
      simp only [Pi.add_apply, Pi.neg_apply, Pi.smul_apply, smul_eq_mul, vecMul, dotProduct, mul_comm]
    rw [a1, add_dotProduct, add_dotProduct, add_dotProduct, neg_dotProduct, smul_dotProduct, dotProduct_mulVec,
      dotProduct_mulVec, smul_eq_mul]
  have e2 : (fun j => dtr * Lu j + (∑ r, Fu r j * lam' r) + ∑ r, D r j * nu r) ⬝ᵥ du
      = dtr * (Lu ⬝ᵥ du) + lam' ⬝ᵥ (Fu *ᵥ du) + nu ⬝ᵥ (D *ᵥ du) := by
    have a1 : (fun j => dtr * Lu j + (∑ r, Fu r j * lam' r) + ∑ r, D r j * nu r)
        = dtr • Lu + lam' ᵥ* Fu + nu ᵥ* D := by
      funext j
      simp only [Pi.add_apply, Pi.smul_apply, smul_eq_mul, vecMul, dotProduct, mul_comm]
    rw [a1, add_dotProduct, add_dotProduct, smul_dotProduct, dotProduct_mulVec,
      dotProduct_mulVec, smul_eq_mul]
  have b1 := dot_bound (d := dx) hx
  have b2 := dot_bound (d := du) hu
  rw [e1] at b1
  rw [e2] at b2
  have e3 : lam' ⬝ᵥ (Fx *ᵥ dx) + lam' ⬝ᵥ (Fu *ᵥ du) = lam' ⬝ᵥ dx' := by
    rw [← dotProduct_add, hdyn]
  have b4 := dot_bound' (d := nu) hE
  have e4 : nu ⬝ᵥ (C *ᵥ dx) + nu ⬝ᵥ (D *ᵥ du) ≤ nu ⬝ᵥ gy + nu ⬝ᵥ s - nu ⬝ᵥ e := by
    rw [← dotProduct_add, ← dotProduct_add, ← dotProduct_sub]
    refine dot_mono hnu fun j => ?_
    have := hineq j; have := he j
    simp only [Pi.add_apply, Pi.sub_apply]
    linarith
  have b5 : nu ⬝ᵥ s ≤ tol * q := by
    have : nu ⬝ᵥ s ≤ ∑ _j : Fin q, tol := sum_le_sum fun j _ => by rw [mul_comm]; exact hsn j
    rw [sum_const, card_univ, Fintype.card_fin, nsmul_eq_mul, mul_comm] at this
    exact this
  have b6 := mul_le_mul_of_nonneg_left hc hdt
  nlinarith [b1, b2, b4, b5, b6, e3, e4]

/-- A point with small KKT residuals nearly minimises the Lagrangian over the trajectories with the same defects. -/
theorem kkt_lagrange (hP : ConvexProblem P) (hdt : 0 ≤ dt)
    {v : Var n (fun i => md (timeAt t0 dt i)) (fun i => pd (timeAt t0 dt i)) ℝ}
    {dF : (i : ℕ) → FDeriv n (md (timeAt t0 dt i)) ℝ} {dG : (i : ℕ) → GDeriv n (md (timeAt t0 dt i)) (pd (timeAt t0 dt i)) ℝ}
    {dL : (i : ℕ) → LDeriv n (md (timeAt t0 dt i)) ℝ} {dV : VDeriv n ℝ} {tol : ℝ}
    (hD : DerivsAt P t0 dt N v dF dG dL dV) (hk : KktWithin P t0 dt x0 N v dF dG dL dV tol)
    (hnu : ∀ i < N, ∀ j, 0 ≤ v.nu i j) {y : ℕ → Vec n ℝ} {z : (i : ℕ) → Vec (md (timeAt t0 dt i)) ℝ}
    (h0 : y 0 = v.x 0) (hy : ∀ i < N, y (i + 1) - v.x (i + 1) =
      P.stateEq (timeAt t0 dt i) (y i) (z i) - P.stateEq (timeAt t0 dt i) (v.x i) (v.u i)) :
    trajCost P t0 dt N v.x v.u ≤ trajCost P t0 dt N y z + (∑ i ∈ range N, v.nu i ⬝ᵥ P.ineqConst (timeAt t0 dt i) (y i) (z i)) +
      tol * (l1 (y N - v.x N) +
      ∑ i ∈ range N, (l1 (y i - v.x i) + l1 (z i - v.u i) + l1 (v.nu i) + (pd (timeAt t0 dt i) : ℝ))) := by
  obtain ⟨k0, kN, ks⟩ := hk.each
  have key : ∀ k ≤ N, (∑ i ∈ range k, dt * P.runningCost (timeAt t0 dt i) (v.x i) (v.u i))
      - v.lam k ⬝ᵥ (y k - v.x k)
      - tol * (∑ i ∈ range k, (l1 (y i - v.x i) + l1 (z i - v.u i) + l1 (v.nu i) +
        (pd (timeAt t0 dt i) : ℝ))) ≤ (∑ i ∈ range k, dt * P.runningCost (timeAt t0 dt i) (y i) (z i)) +
        ∑ i ∈ range k, v.nu i ⬝ᵥ P.ineqConst (timeAt t0 dt i) (y i) (z i) := by
    intro k
    induction k with
    | zero => intro _; simp [h0]
    | succ k ih =>
      intro hk1
      have hkN : k < N := hk1
      have h1 := ih (by omega)
      obtain ⟨⟨bF, hF⟩, ⟨bG, hG⟩, ⟨bL, hLd⟩⟩ := hD.1 k hkN
      obtain ⟨q1, q2, q3, q4, q5, -⟩ := ks k hkN
      have h2 := stage_lagrange (lam := v.lam k) (lam' := v.lam (k + 1)) (dx := y k - v.x k) (dx' := y (k + 1) - v.x (k + 1))
        (du := z k - v.u k) (s := v.s k) (nu := v.nu k) (Fx := (dF k).Fx) (Fu := (dF k).Fu) (C := (dG k).C) (D := (dG k).D)
        (Lx := (dL k).Lx) (Lu := (dL k).Lu) (gy := P.ineqConst (timeAt t0 dt k) (y k) (z k))
        (gv := P.ineqConst (timeAt t0 dt k) (v.x k) (v.u k))
        (e := fun j => P.ineqConst (timeAt t0 dt k) (v.x k) (v.u k) j + v.s k j)
        (lx := P.runningCost (timeAt t0 dt k) (v.x k) (v.u k)) (lx' := P.runningCost (timeAt t0 dt k) (y k) (z k)) hdt
        (by rw [hLd]; exact hP.cost _ _ _ _ _ bL)
        (by rw [hF, ← hP.dyn _ _ _ _ _ bF, hy k hkN])
        (by rw [hG]; exact hP.ineq _ _ _ _ _ bG) (hnu k hkN) (fun _ => rfl) q2 q5 q3 q4
      rw [sum_range_succ, sum_range_succ, sum_range_succ, sum_range_succ, mul_add]
      linarith
  have hN := key N le_rfl
  obtain ⟨bV, hV⟩ := hD.2
  have t1 := hP.term (timeAt t0 dt N) (v.x N) (y N) bV
  rw [← hV] at t1
  have t2 := dot_bound (r := fun j => dV.Vx j - v.lam N j) (d := y N - v.x N) kN
  have t3 : (fun j => dV.Vx j - v.lam N j) ⬝ᵥ (y N - v.x N) = dV.Vx ⬝ᵥ (y N - v.x N) - v.lam N ⬝ᵥ (y N - v.x N) :=
    sub_dotProduct dV.Vx (v.lam N) (y N - v.x N)
  unfold trajCost
  rw [mul_add]
  linarith

/-- Costs of two trajectories with the same inputs and nearby states. -/
theorem cost_close (hdt : 0 ≤ dt) {Λ r e : ℝ} (hΛ : 0 ≤ Λ)
    (h1 : ∀ i < N, ∀ (x x' : Vec n ℝ) (u : Vec (md (timeAt t0 dt i)) ℝ), ‖x‖ ≤ r → ‖x'‖ ≤ r → ‖u‖ ≤ r →
      |P.runningCost (timeAt t0 dt i) x' u - P.runningCost (timeAt t0 dt i) x u| ≤ Λ * ‖x' - x‖)
    (h2 : ∀ x x' : Vec n ℝ, ‖x‖ ≤ r → ‖x'‖ ≤ r →
      |P.terminalCost (timeAt t0 dt N) x' - P.terminalCost (timeAt t0 dt N) x| ≤ Λ * ‖x' - x‖)
    {x y : ℕ → Vec n ℝ} {z : (i : ℕ) → Vec (md (timeAt t0 dt i)) ℝ} (hx : ∀ i ≤ N, ‖x i‖ ≤ r) (hy : ∀ i ≤ N, ‖y i‖ ≤ r)
    (hz : ∀ i < N, ‖z i‖ ≤ r) (hxy : ∀ i ≤ N, ‖y i - x i‖ ≤ e) :
    |trajCost P t0 dt N y z - trajCost P t0 dt N x z| ≤ (N * dt + 1) * (Λ * e) := by
  unfold trajCost
  have a : |∑ i ∈ range N, (dt * P.runningCost (timeAt t0 dt i) (y i) (z i) - dt * P.runningCost (timeAt t0 dt i) (x i) (z i))| ≤
      ∑ _i ∈ range N, dt * (Λ * e) := by
    refine (abs_sum_le_sum_abs _ _).trans (sum_le_sum fun i hi => ?_)
    have hi := mem_range.1 hi
    rw [← mul_sub, abs_mul, abs_of_nonneg hdt]
    exact mul_le_mul_of_nonneg_left ((h1 i hi _ _ _ (hx i hi.le) (hy i hi.le) (hz i hi)).trans
      (mul_le_mul_of_nonneg_left (hxy i hi.le) hΛ)) hdt
  rw [sum_const, card_range, nsmul_eq_mul, sum_sub_distrib] at a
  have b := (h2 _ _ (hx N le_rfl) (hy N le_rfl)).trans (mul_le_mul_of_nonneg_left (hxy N le_rfl) hΛ)
  rw [abs_le] at a b ⊢
  constructor <;> nlinarith [a.1, a.2, b.1, b.2]

/-- A convex cost is bounded below on bounded sets. -/
theorem cost_lower (hP : ConvexProblem P) (hdt : 0 ≤ dt) (a : ℕ → Vec n ℝ) (w : (i : ℕ) → Vec (md (timeAt t0 dt i)) ℝ) (r : ℝ) :
    ∃ G, 0 ≤ G ∧ ∀ (x : ℕ → Vec n ℝ) (u : (i : ℕ) → Vec (md (timeAt t0 dt i)) ℝ), (∀ i ≤ N, ‖x i - a i‖ ≤ r) →
      (∀ i < N, ‖u i - w i‖ ≤ r) → trajCost P t0 dt N a w - G * r ≤ trajCost P t0 dt N x u := by
  set gL := fun i => P.runningCostDeriv (timeAt t0 dt i) (a i) (w i) ⟨0, 0, 0, 0, 0⟩ with hgL
  set gV := P.terminalCostDeriv (timeAt t0 dt N) (a N) ⟨0, 0⟩ with hgV
  refine ⟨(∑ i ∈ range N, dt * (l1 (gL i).Lx + l1 (gL i).Lu)) + l1 gV.Vx, ?_, fun x u hx hu => ?_⟩
  · exact add_nonneg (sum_nonneg fun i _ => mul_nonneg hdt (add_nonneg (l1_nonneg _) (l1_nonneg _))) (l1_nonneg _)
  · unfold trajCost
    have hs : ∑ i ∈ range N, (dt * P.runningCost (timeAt t0 dt i) (a i) (w i) - dt * (l1 (gL i).Lx + l1 (gL i).Lu) * r) ≤
        ∑ i ∈ range N, dt * P.runningCost (timeAt t0 dt i) (x i) (u i) := by
      refine sum_le_sum fun i hi => ?_
      have hi := mem_range.1 hi
      have h1 := hP.cost (timeAt t0 dt i) (a i) (w i) (x i) (u i) ⟨0, 0, 0, 0, 0⟩
      have h2 := dot_le_norm (gL i).Lx (x i - a i)
      have h3 := dot_le_norm (gL i).Lu (u i - w i)
      have h4 := mul_le_mul_of_nonneg_left (hx i hi.le) (l1_nonneg (gL i).Lx)
      have h5 := mul_le_mul_of_nonneg_left (hu i hi) (l1_nonneg (gL i).Lu)
      have h6 : P.runningCost (timeAt t0 dt i) (a i) (w i) - (l1 (gL i).Lx + l1 (gL i).Lu) * r ≤
          P.runningCost (timeAt t0 dt i) (x i) (u i) := by linarith
      have := mul_le_mul_of_nonneg_left h6 hdt
      linarith
    rw [sum_sub_distrib, ← sum_mul] at hs
    have h1 := hP.term (timeAt t0 dt N) (a N) (x N) ⟨0, 0⟩
    have h2 := dot_le_norm gV.Vx (x N - a N)
    have h4 := mul_le_mul_of_nonneg_left (hx N le_rfl) (l1_nonneg gV.Vx)
    linarith

/-- The distance that enters the duality bound is bounded for inputs of bounded size. -/
theorem dist_bound {ρ R : ℝ} {y x : ℕ → Vec n ℝ} {z u : (i : ℕ) → Vec (md (timeAt t0 dt i)) ℝ} (hρ : ∀ i ≤ N, ‖y i - x i‖ ≤ ρ)
    (hR : ∀ i < N, ‖z i - u i‖ ≤ R) :
    l1 (y N - x N) + ∑ i ∈ range N, (l1 (y i - x i) + l1 (z i - u i)) ≤
      n * ρ + ∑ i ∈ range N, (n * ρ + md (timeAt t0 dt i) * R) := by
  refine add_le_add ((l1_le_norm _).trans (mul_le_mul_of_nonneg_left (hρ N le_rfl) (Nat.cast_nonneg _))) (sum_le_sum fun i hi => ?_)
  have hi := mem_range.1 hi
  exact add_le_add ((l1_le_norm _).trans (mul_le_mul_of_nonneg_left (hρ i hi.le) (Nat.cast_nonneg _)))
    ((l1_le_norm _).trans (mul_le_mul_of_nonneg_left (hR i hi) (Nat.cast_nonneg _)))

theorem nu_dot_le {k : ℕ} {nu g : Vec k ℝ} {c : ℝ} (hnu : ∀ j, 0 ≤ nu j) (hg : ∀ j, g j ≤ c) : nu ⬝ᵥ g ≤ c * l1 nu := by
  unfold dotProduct l1
  rw [mul_sum]
  refine sum_le_sum fun j _ => ?_
  rw [abs_of_nonneg (hnu j), mul_comm c]
  exact mul_le_mul_of_nonneg_left (hg j) (hnu j)

end Roll
end Nmpc.FMPC
