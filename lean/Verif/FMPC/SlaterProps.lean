import Verif.FMPC.Slater
import Verif.FMPC.OptimalProps
import Verif.CGMRES.OdeOrder

/-!
# FMPC: distance of the result from the optimum with constants of the problem only (C140)
-/

set_option linter.unusedSectionVars false

namespace Nmpc.FMPC

open DDP (FDeriv LDeriv VDeriv timeAt)
open Matrix Finset

section Main
variable {n : ℕ} {md pd : ℝ → ℕ} {P : Callbacks n md pd} {t0 dt : ℝ} {x0 : Vec n ℝ} {N : ℕ}

/-- What a point with KKT residuals of at most `tol` satisfies, with a constant `C`: its multipliers are bounded, its states are within
`C tol` of the trajectory of its inputs, its cost is within `C tol` of the smallest cost of feasible trajectories with inputs of size
`R`, and there is a feasible trajectory of nearly this cost with nearly these inputs. -/
structure NearOptimal (P : Callbacks n md pd) (t0 dt : ℝ) (x0 : Vec n ℝ) (N : ℕ) (R C tol : ℝ)
    (v : Var n (fun i => md (timeAt t0 dt i)) (fun i => pd (timeAt t0 dt i)) ℝ) : Prop where
  mult : ∑ i ∈ range N, l1 (v.nu i) ≤ C
  states : ∀ i ≤ N, ‖v.x i - rollOut P t0 dt x0 v.u i‖ ≤ C * tol
  upper : ∀ y z, FeasibleTraj P t0 dt x0 N y z → (∀ i < N, ‖z i‖ ≤ R) →
    trajCost P t0 dt N v.x v.u ≤ trajCost P t0 dt N y z + C * tol
  lower : ∃ y z, FeasibleTraj P t0 dt x0 N y z ∧ (∀ i < N, ‖z i‖ ≤ R) ∧
    trajCost P t0 dt N y z ≤ trajCost P t0 dt N v.x v.u + C * tol ∧ ∀ i < N, ‖z i - v.u i‖ ≤ C * tol

/-- The constant, from bounds that hold for several initial states. -/
theorem kkt_slater_core (hP : ConvexProblem P) (hdt : 0 ≤ dt) {σ R K ρ Λ G' : ℝ} (hσ : 0 < σ) (hR : 0 ≤ R) (hK : 0 ≤ K) (hρ : 0 ≤ ρ)
    (hΛ : 0 ≤ Λ) (hG0 : 0 ≤ G')
    (hl1 : ∀ i < N, ∀ (x x' : Vec n ℝ) (u : Vec (md (timeAt t0 dt i)) ℝ), ‖x‖ ≤ ρ + K + R → ‖x'‖ ≤ ρ + K + R → ‖u‖ ≤ ρ + K + R →
      |P.runningCost (timeAt t0 dt i) x' u - P.runningCost (timeAt t0 dt i) x u| ≤ Λ * ‖x' - x‖ ∧
      ∀ j, |P.ineqConst (timeAt t0 dt i) x' u j - P.ineqConst (timeAt t0 dt i) x u j| ≤ Λ * ‖x' - x‖)
    (hl2 : ∀ x x' : Vec n ℝ, ‖x‖ ≤ ρ + K + R → ‖x'‖ ≤ ρ + K + R →
      |P.terminalCost (timeAt t0 dt N) x' - P.terminalCost (timeAt t0 dt N) x| ≤ Λ * ‖x' - x‖) : ∃ C, 1 ≤ C ∧
      ∀ (x0 : Vec n ℝ) (w : (i : ℕ) → Vec (md (timeAt t0 dt i)) ℝ),
        (∀ i < N, ∀ j, P.ineqConst (timeAt t0 dt i) (rollOut P t0 dt x0 w i) (w i) j ≤ -σ) → (∀ i < N, ‖w i‖ ≤ R) →
        (∀ i ≤ N, ∀ (x : ℕ → Vec n ℝ) (u : (i : ℕ) → Vec (md (timeAt t0 dt i)) ℝ) (tol : ℝ), 0 ≤ tol →
          NearTraj P t0 dt x0 N tol x u → ‖x i - rollOut P t0 dt x0 u i‖ ≤ K * tol) →
        (∀ i ≤ N, ∀ (u : (i : ℕ) → Vec (md (timeAt t0 dt i)) ℝ), (∀ i < N, ‖u i‖ ≤ R) → ‖rollOut P t0 dt x0 u i‖ ≤ ρ) →
        (∀ (x : ℕ → Vec n ℝ) (u : (i : ℕ) → Vec (md (timeAt t0 dt i)) ℝ), (∀ i ≤ N, ‖x i‖ ≤ ρ + K) → (∀ i < N, ‖u i‖ ≤ R) →
          trajCost P t0 dt N (rollOut P t0 dt x0 w) w - G' ≤ trajCost P t0 dt N x u) →
      ∀ (v : Var n (fun i => md (timeAt t0 dt i)) (fun i => pd (timeAt t0 dt i)) ℝ)
        (dF : (i : ℕ) → FDeriv n (md (timeAt t0 dt i)) ℝ) (dG : (i : ℕ) → GDeriv n (md (timeAt t0 dt i)) (pd (timeAt t0 dt i)) ℝ)
        (dL : (i : ℕ) → LDeriv n (md (timeAt t0 dt i)) ℝ) (dV : VDeriv n ℝ) (tol : ℝ),
        DerivsAt P t0 dt N v dF dG dL dV → KktWithin P t0 dt x0 N v dF dG dL dV tol → v.Pos N → C * tol ≤ 1 →
        (∀ i < N, ‖v.u i‖ ≤ R) → NearOptimal P t0 dt x0 N R C tol v := by
  set r := ρ + K + R with hr
  set DR : ℝ := n * (2 * ρ) + ∑ i ∈ range N, (n * (2 * ρ) + md (timeAt t0 dt i) * (2 * R)) with hDR
  have hDR0 : 0 ≤ DR := by positivity
  set M : ℝ := ∑ i ∈ range N, (pd (timeAt t0 dt i) : ℝ) with hM
  have hM0 : 0 ≤ M := sum_nonneg fun _ _ => Nat.cast_nonneg _
  set c1 : ℝ := (N * dt + 1) * (Λ * K) with hc1
  have hc10 : 0 ≤ c1 := by positivity
  set Tb : ℝ := 2 * (G' + c1 + M + DR) / σ with hTb
  have hTb0 : 0 ≤ Tb := by positivity
  set q : ℝ := (1 + Λ * K) / σ with hq
  have hq0 : 0 ≤ q := by positivity
  have hΛK : 0 ≤ Λ * K := by positivity
  refine ⟨1 + K + Tb + 2 * q + (c1 + Λ * K * Tb + Tb + M + DR) + (c1 + q * (G' + c1)) + 2 * R * q, by
    have h1 : 0 ≤ q * (G' + c1) := by positivity
    have h2 : 0 ≤ Λ * K * Tb := by positivity
    have h3 : 0 ≤ 2 * R * q := by positivity
    linarith, ?_⟩
  intro x0 w hs hw hclose hroll hlow v dF dG dL dV tol hD hk hpos hC hu
  have htol : 0 ≤ tol := (Real.sqrt_nonneg _).trans hk
  obtain ⟨k0, kN, ks⟩ := hk.each
  have hnu : ∀ i < N, ∀ j, 0 ≤ v.nu i j := fun i hi j => (hpos.2 i hi j).le
  set T := ∑ i ∈ range N, l1 (v.nu i) with hT
  have hT0 : 0 ≤ T := sum_nonneg fun _ _ => l1_nonneg _
  have n1 : 0 ≤ q * (G' + c1) := by positivity
  have n2 : 0 ≤ Λ * K * Tb := by positivity
  have n3 : 0 ≤ 2 * R * q := by positivity
  have hmono : ∀ a, a ≤ 1 + K + Tb + 2 * q + (c1 + Λ * K * Tb + Tb + M + DR) + (c1 + q * (G' + c1)) + 2 * R * q →
      a * tol ≤ (1 + K + Tb + 2 * q + (c1 + Λ * K * Tb + Tb + M + DR) + (c1 + q * (G' + c1)) + 2 * R * q) * tol :=
    fun a ha => mul_le_mul_of_nonneg_right ha htol
  have htol1 : tol ≤ 1 := by
    have := (hmono 1 (by linarith)).trans hC
    linarith
  have hqt : q * tol ≤ 1 / 2 := by
    have := (hmono (2 * q) (by linarith)).trans hC
    linarith
  have hqσ : q * σ = 1 + Λ * K := by rw [hq]; field_simp
  have hnear : NearTraj P t0 dt x0 N tol v.x v.u := ⟨k0, fun i hi => (ks i hi).1⟩
  have hx : ∀ i ≤ N, ‖v.x i - rollOut P t0 dt x0 v.u i‖ ≤ K * tol := fun i hi => hclose i hi _ _ _ htol hnear
  have hKt : K * tol ≤ K := mul_le_of_le_one_right hK htol1
  have hxr : ∀ i ≤ N, ‖v.x i‖ ≤ ρ + K := by
    intro i hi
    have h1 := norm_add_le (v.x i - rollOut P t0 dt x0 v.u i) (rollOut P t0 dt x0 v.u i)
    rw [sub_add_cancel] at h1
    have := hx i hi
    have := hroll i hi v.u hu
    linarith
  -- trajectories with the defects of the point
  set e : ℕ → Vec n ℝ := fun i => v.x i - rollOut P t0 dt x0 v.u i with he
  set Y : ((i : ℕ) → Vec (md (timeAt t0 dt i)) ℝ) → ℕ → Vec n ℝ := fun z i => rollOut P t0 dt x0 z i + e i with hY
  have hY0 : ∀ z, Y z 0 = v.x 0 := by intro z; simp only [hY, he, rollOut]; abel
  have hYd : ∀ z i, Y z i - v.x i = rollOut P t0 dt x0 z i - rollOut P t0 dt x0 v.u i := by
    intro z i; simp only [hY, he]; abel
  have hYs : ∀ z, ∀ i < N, Y z (i + 1) - v.x (i + 1) =
      P.stateEq (timeAt t0 dt i) (Y z i) (z i) - P.stateEq (timeAt t0 dt i) (v.x i) (v.u i) := by
    intro z i _
    obtain ⟨A, B, hA⟩ := hP.affine (timeAt t0 dt i)
    rw [hYd, hA, hYd, ← hA]
    rfl
  have hYr : ∀ z, (∀ i < N, ‖z i‖ ≤ R) → ∀ i ≤ N, ‖Y z i‖ ≤ r ∧ ‖rollOut P t0 dt x0 z i‖ ≤ r ∧ ‖Y z i - rollOut P t0 dt x0 z i‖ ≤ K * tol := by
    intro z hz i hi
    have h1 := hroll i hi z hz
    have h2 := hx i hi
    have h3 := norm_add_le (rollOut P t0 dt x0 z i) (e i)
    have h4 : ‖e i‖ ≤ K * tol := h2
    refine ⟨?_, by linarith, ?_⟩
    · show ‖rollOut P t0 dt x0 z i + e i‖ ≤ r
      linarith
    · show ‖rollOut P t0 dt x0 z i + e i - rollOut P t0 dt x0 z i‖ ≤ _
      rw [add_sub_cancel_left]; exact h4
  have hcost : ∀ z, (∀ i < N, ‖z i‖ ≤ R) →
      |trajCost P t0 dt N (Y z) z - trajCost P t0 dt N (rollOut P t0 dt x0 z) z| ≤ c1 * tol := by
    intro z hz
    have := cost_close (P := P) (t0 := t0) (N := N) (x := rollOut P t0 dt x0 z) (y := Y z) (z := z) (e := K * tol) hdt hΛ
      (fun i hi x x' u a b c => (hl1 i hi x x' u a b c).1) hl2 (fun i hi => (hYr z hz i hi).2.1) (fun i hi => (hYr z hz i hi).1)
      (fun i hi => (hz i hi).trans (by linarith)) (fun i hi => (hYr z hz i hi).2.2)
    rw [hc1]
    linarith
  have hineq : ∀ z, (∀ i < N, ‖z i‖ ≤ R) → ∀ i < N, ∀ j, |P.ineqConst (timeAt t0 dt i) (Y z i) (z i) j -
      P.ineqConst (timeAt t0 dt i) (rollOut P t0 dt x0 z i) (z i) j| ≤ Λ * K * tol := by
    intro z hz i hi j
    have h1 := (hl1 i hi (rollOut P t0 dt x0 z i) (Y z i) (z i) (hYr z hz i hi.le).2.1 (hYr z hz i hi.le).1
      ((hz i hi).trans (by linarith))).2 j
    have h2 := mul_le_mul_of_nonneg_left (hYr z hz i hi.le).2.2 hΛ
    linarith
  -- the duality bound
  have hdual : ∀ z, (∀ i < N, ‖z i‖ ≤ R) → ∀ c, (∀ i < N, ∀ j, P.ineqConst (timeAt t0 dt i) (rollOut P t0 dt x0 z i) (z i) j ≤ c) →
      trajCost P t0 dt N v.x v.u ≤ trajCost P t0 dt N (rollOut P t0 dt x0 z) z + c1 * tol + (c + Λ * K * tol) * T +
        tol * (T + M + DR) := by
    intro z hz c hc
    have h1 := kkt_lagrange hP hdt hD hk hnu (hY0 z) (hYs z)
    have h2 : ∑ i ∈ range N, v.nu i ⬝ᵥ P.ineqConst (timeAt t0 dt i) (Y z i) (z i) ≤ (c + Λ * K * tol) * T := by
      rw [hT, mul_sum]
      refine sum_le_sum fun i hi => ?_
      have hi := mem_range.1 hi
      refine nu_dot_le (hnu i hi) fun j => ?_
      have a := (abs_le.1 (hineq z hz i hi j)).2
      have b := hc i hi j
      linarith
    have h3 := (abs_le.1 (hcost z hz)).2
    have h4 : l1 (Y z N - v.x N) + ∑ i ∈ range N, (l1 (Y z i - v.x i) + l1 (z i - v.u i)) ≤ DR := by
      refine dist_bound (fun i hi => ?_) fun i hi => ?_
      · rw [hYd]
        have a := hroll i hi z hz
        have b := hroll i hi v.u hu
        have := norm_sub_le (rollOut P t0 dt x0 z i) (rollOut P t0 dt x0 v.u i)
        linarith
      · have := norm_sub_le (z i) (v.u i)
        have := hz i hi
        have := hu i hi
        linarith
    have h5 : l1 (Y z N - v.x N) + ∑ i ∈ range N, (l1 (Y z i - v.x i) + l1 (z i - v.u i) + l1 (v.nu i) + (pd (timeAt t0 dt i) : ℝ)) =
        l1 (Y z N - v.x N) + ∑ i ∈ range N, (l1 (Y z i - v.x i) + l1 (z i - v.u i)) + T + M := by
      rw [sum_add_distrib, sum_add_distrib (g := fun i => l1 (v.nu i))]
      ring
    rw [h5] at h1
    have h6 : tol * (l1 (Y z N - v.x N) + ∑ i ∈ range N, (l1 (Y z i - v.x i) + l1 (z i - v.u i)) + T + M) ≤ tol * (T + M + DR) :=
      mul_le_mul_of_nonneg_left (by linarith) htol
    linarith
  -- the multipliers
  have hlower : trajCost P t0 dt N (rollOut P t0 dt x0 w) w - G' ≤ trajCost P t0 dt N v.x v.u := by
    exact hlow v.x v.u hxr hu
  have hTle : T ≤ Tb := by
    have h1 := hdual w hw (-σ) hs
    have h2 : (σ - (1 + Λ * K) * tol) * T ≤ G' + (c1 + M + DR) * tol := by linarith
    have h3 : (1 + Λ * K) * tol ≤ σ / 2 := by
      rw [← hqσ]
      have := mul_le_mul_of_nonneg_right hqt hσ.le
      linarith
    have h4 : σ / 2 * T ≤ (σ - (1 + Λ * K) * tol) * T := mul_le_mul_of_nonneg_right (by linarith) hT0
    have h5 : (c1 + M + DR) * tol ≤ c1 + M + DR := mul_le_of_le_one_right (by linarith) htol1
    rw [hTb, le_div_iff₀ hσ]
    linarith
  refine ⟨by linarith, fun i hi => (hx i hi).trans (hmono K (by linarith)), fun y z hy hz => ?_, ?_⟩
  · have hyr := hy.eq_rollOut
    have h1 := hdual z hz 0 fun i hi j => by
      have := hy.ineq i hi j
      rwa [hyr i hi.le] at this
    rw [trajCost_congr hyr]
    have h2 : Λ * K * tol * T ≤ Λ * K * tol * Tb := mul_le_mul_of_nonneg_left hTle (by positivity)
    have h3 : tol * T ≤ tol * Tb := mul_le_mul_of_nonneg_left hTle htol
    have h4 := hmono (c1 + Λ * K * Tb + Tb + M + DR) (by linarith)
    linarith
  · set θ := q * tol with hθ
    have hθ0 : 0 ≤ θ := by positivity
    have hθ1 : θ ≤ 1 := by linarith
    refine ⟨rollOut P t0 dt x0 (fun i => v.u i + θ • (w i - v.u i)), fun i => v.u i + θ • (w i - v.u i), ⟨rfl, fun i _ => rfl, ?_⟩, ?_, ?_, ?_⟩
    · intro i hi j
      rw [roll_mix hP]
      refine (ineq_mix hP hθ0 hθ1 _ _ _ _ j).trans ?_
      have h1 := hs i hi j
      have h2 : P.ineqConst (timeAt t0 dt i) (rollOut P t0 dt x0 v.u i) (v.u i) j ≤ (1 + Λ * K) * tol := by
        have a := (abs_le.1 (hineq v.u hu i hi j)).1
        have b := (ks i hi).2.2.2.2.2 j (hpos.1 i hi j).le
        have c : Y v.u i = v.x i := by simp only [hY, he]; abel
        rw [c] at a
        linarith
      have h3 := mul_le_mul_of_nonneg_left h1 hθ0
      have h4 := mul_le_mul_of_nonneg_left h2 (sub_nonneg.2 hθ1)
      have h5 : (1 - θ) * ((1 + Λ * K) * tol) ≤ (1 + Λ * K) * tol := mul_le_of_le_one_left (by positivity) (by linarith)
      have h6 : θ * σ = (1 + Λ * K) * tol := by rw [hθ, ← hqσ]; ring
      linarith
    · intro i hi
      have h1 : v.u i + θ • (w i - v.u i) = (1 - θ) • v.u i + θ • w i := by module
      show ‖v.u i + θ • (w i - v.u i)‖ ≤ R
      rw [h1]
      have h2 := norm_add_le ((1 - θ) • v.u i) (θ • w i)
      rw [norm_smul, norm_smul, Real.norm_eq_abs, Real.norm_eq_abs, abs_of_nonneg hθ0, abs_of_nonneg (sub_nonneg.2 hθ1)] at h2
      have h3 := mul_le_mul_of_nonneg_left (hu i hi) (sub_nonneg.2 hθ1)
      have h4 := mul_le_mul_of_nonneg_left (hw i hi) hθ0
      linarith
    · have h1 := cost_mix (N := N) (x0 := x0) hP hP.strong0 hdt hθ0 hθ1 v.u w
      have h2 := (abs_le.1 (hcost v.u hu)).1
      have c : Y v.u = v.x := by funext i; simp only [hY, he]; abel
      rw [c] at h2
      have h3 : θ * (trajCost P t0 dt N (rollOut P t0 dt x0 w) w - trajCost P t0 dt N (rollOut P t0 dt x0 v.u) v.u) ≤ θ * (G' + c1) := by
        refine mul_le_mul_of_nonneg_left ?_ hθ0
        have h5 := (abs_le.1 (hcost v.u hu)).2
        rw [c] at h5
        have h6 : c1 * tol ≤ c1 := mul_le_of_le_one_right hc10 htol1
        linarith
      have h4 := hmono (c1 + q * (G' + c1)) (by linarith)
      have h5 : θ * (G' + c1) = q * (G' + c1) * tol := by rw [hθ]; ring
      linarith
    · intro i hi
      show ‖v.u i + θ • (w i - v.u i) - v.u i‖ ≤ _
      rw [add_sub_cancel_left, norm_smul, Real.norm_eq_abs, abs_of_nonneg hθ0]
      have h1 := norm_sub_le (w i) (v.u i)
      have h2 := hw i hi
      have h3 := hu i hi
      have h4 : θ * ‖w i - v.u i‖ ≤ θ * (2 * R) := mul_le_mul_of_nonneg_left (by linarith) hθ0
      have h5 := hmono (2 * R * q) (by linarith)
      have h6 : θ * (2 * R) = 2 * R * q * tol := by rw [hθ]; ring
      linarith

theorem kkt_slater (hP : ConvexProblem P) (hdt : 0 ≤ dt) (hLip : LocLip P t0 dt N) {w : (i : ℕ) → Vec (md (timeAt t0 dt i)) ℝ}
    {σ : ℝ} (hσ : 0 < σ) (hs : ∀ i < N, ∀ j, P.ineqConst (timeAt t0 dt i) (rollOut P t0 dt x0 w i) (w i) j ≤ -σ)
    {R : ℝ} (hR : 0 ≤ R) (hw : ∀ i < N, ‖w i‖ ≤ R) : ∃ C, 1 ≤ C ∧
      ∀ (v : Var n (fun i => md (timeAt t0 dt i)) (fun i => pd (timeAt t0 dt i)) ℝ)
        (dF : (i : ℕ) → FDeriv n (md (timeAt t0 dt i)) ℝ) (dG : (i : ℕ) → GDeriv n (md (timeAt t0 dt i)) (pd (timeAt t0 dt i)) ℝ)
        (dL : (i : ℕ) → LDeriv n (md (timeAt t0 dt i)) ℝ) (dV : VDeriv n ℝ) (tol : ℝ),
        DerivsAt P t0 dt N v dF dG dL dV → KktWithin P t0 dt x0 N v dF dG dL dV tol → v.Pos N → C * tol ≤ 1 →
        (∀ i < N, ‖v.u i‖ ≤ R) → NearOptimal P t0 dt x0 N R C tol v := by
  obtain ⟨K, hK, hclose⟩ := near_close (t0 := t0) (dt := dt) hP x0 N
  obtain ⟨ρ, hρ, hroll⟩ := roll_bounded (t0 := t0) (dt := dt) hP x0 N hR
  obtain ⟨Λ, hΛ, hl1, hl2⟩ := hLip (ρ + K + R)
  obtain ⟨G, hG, hlow⟩ := cost_lower (N := N) (t0 := t0) hP hdt (rollOut P t0 dt x0 w) w (2 * ρ + K + 2 * R)
  obtain ⟨C, hC, h⟩ := kkt_slater_core (N := N) hP hdt hσ hR hK hρ hΛ (show 0 ≤ G * (2 * ρ + K + 2 * R) by positivity) hl1 hl2
  refine ⟨C, hC, h x0 w hs hw hclose hroll fun x u hx hu => hlow x u (fun i hi => ?_) fun i hi => ?_⟩
  · have := norm_sub_le (x i) (rollOut P t0 dt x0 w i)
    have := hx i hi
    have := hroll i hi w hw
    linarith
  · have := norm_sub_le (u i) (w i)
    have := hu i hi
    have := hw i hi
    linarith

/-- One constant for all initial states of a ball. -/
theorem kkt_slater_ball (hP : ConvexProblem P) (hdt : 0 ≤ dt) (hLip : LocLip P t0 dt N) {w : (i : ℕ) → Vec (md (timeAt t0 dt i)) ℝ}
    {σ r0 : ℝ} (hσ : 0 < σ) (hr0 : 0 ≤ r0)
    (hs : ∀ x0, ‖x0‖ ≤ r0 → ∀ i < N, ∀ j, P.ineqConst (timeAt t0 dt i) (rollOut P t0 dt x0 w i) (w i) j ≤ -σ)
    {R : ℝ} (hR : 0 ≤ R) (hw : ∀ i < N, ‖w i‖ ≤ R) : ∃ C, 1 ≤ C ∧ ∀ (x0 : Vec n ℝ), ‖x0‖ ≤ r0 →
      ∀ (v : Var n (fun i => md (timeAt t0 dt i)) (fun i => pd (timeAt t0 dt i)) ℝ)
        (dF : (i : ℕ) → FDeriv n (md (timeAt t0 dt i)) ℝ) (dG : (i : ℕ) → GDeriv n (md (timeAt t0 dt i)) (pd (timeAt t0 dt i)) ℝ)
        (dL : (i : ℕ) → LDeriv n (md (timeAt t0 dt i)) ℝ) (dV : VDeriv n ℝ) (tol : ℝ),
        DerivsAt P t0 dt N v dF dG dL dV → KktWithin P t0 dt x0 N v dF dG dL dV tol → v.Pos N → C * tol ≤ 1 →
        (∀ i < N, ‖v.u i‖ ≤ R) → NearOptimal P t0 dt x0 N R C tol v := by
  obtain ⟨K, hK, hclose⟩ := near_close_all (t0 := t0) (dt := dt) hP N
  obtain ⟨ρ, hρ, hroll⟩ := roll_bounded_ball (t0 := t0) (dt := dt) hP N hr0 hR
  obtain ⟨Λ, hΛ, hl1, hl2⟩ := hLip (ρ + K + R)
  obtain ⟨G, hG, hlow⟩ := cost_lower (N := N) (t0 := t0) hP hdt (fun _ => 0) w (ρ + K + 2 * R)
  have hg : 0 ≤ (N * dt + 1) * (Λ * ρ) := by positivity
  obtain ⟨C, hC, h⟩ := kkt_slater_core (N := N) hP hdt hσ hR hK hρ hΛ
    (show 0 ≤ G * (ρ + K + 2 * R) + (N * dt + 1) * (Λ * ρ) by positivity) hl1 hl2
  refine ⟨C, hC, fun x0 hx0 => h x0 w (hs x0 hx0) hw (fun i hi => hclose i hi x0) (fun i hi u hu => hroll i hi x0 u hx0 hu) fun x u hx hu => ?_⟩
  have h1 := hlow x u (fun i hi => by rw [sub_zero]; linarith [hx i hi]) fun i hi => by
    have := norm_sub_le (u i) (w i)
    have := hu i hi
    have := hw i hi
    linarith
  have h2 := cost_close (P := P) (t0 := t0) (N := N) (x := fun _ => 0) (y := rollOut P t0 dt x0 w) (z := w) (e := ρ) hdt hΛ
    (fun i hi x x' u a b c => (hl1 i hi x x' u a b c).1) hl2 (fun i hi => by rw [norm_zero]; positivity)
    (fun i hi => (hroll i hi x0 w hx0 hw).trans (by linarith)) (fun i hi => (hw i hi).trans (by linarith))
    (fun i hi => by rw [sub_zero]; exact hroll i hi x0 w hx0 hw)
  have h3 := (abs_le.1 h2).2
  linarith

/-- Continuously differentiable costs and constraint functions satisfy `LocLip`. -/
theorem LocLip.of_contDiff
    (h1 : ∀ i < N, ContDiff ℝ 1 fun p : Vec n ℝ × Vec (md (timeAt t0 dt i)) ℝ => P.runningCost (timeAt t0 dt i) p.1 p.2)
    (h2 : ∀ i < N, ContDiff ℝ 1 fun p : Vec n ℝ × Vec (md (timeAt t0 dt i)) ℝ => P.ineqConst (timeAt t0 dt i) p.1 p.2)
    (h3 : ContDiff ℝ 1 fun x => P.terminalCost (timeAt t0 dt N) x) : LocLip P t0 dt N := by
  intro R
  have key : ∀ i, ∃ K, 0 ≤ K ∧ (i < N → ∀ (x x' : Vec n ℝ) (u : Vec (md (timeAt t0 dt i)) ℝ), ‖x‖ ≤ R → ‖x'‖ ≤ R → ‖u‖ ≤ R →
      |P.runningCost (timeAt t0 dt i) x' u - P.runningCost (timeAt t0 dt i) x u| ≤ K * ‖x' - x‖ ∧
      ∀ j, |P.ineqConst (timeAt t0 dt i) x' u j - P.ineqConst (timeAt t0 dt i) x u j| ≤ K * ‖x' - x‖) := by
    intro i
    by_cases hi : i < N
    · obtain ⟨K1, hK1, hl1⟩ := Cgmres.OdeOrder.lip_ball (h1 i hi) R
      obtain ⟨K2, hK2, hl2⟩ := Cgmres.OdeOrder.lip_ball (h2 i hi) R
      refine ⟨K1 + K2, by positivity, fun _ x x' u hx hx' hu => ?_⟩
      have e : ‖((x', u) : Vec n ℝ × Vec (md (timeAt t0 dt i)) ℝ) - (x, u)‖ = ‖x' - x‖ := by
        rw [Prod.mk_sub_mk, sub_self, Prod.norm_mk, norm_zero, max_eq_left (norm_nonneg _)]
      have hp : ∀ y : Vec n ℝ, ‖y‖ ≤ R → ‖((y, u) : Vec n ℝ × Vec (md (timeAt t0 dt i)) ℝ)‖ ≤ R := fun y hy => by
        rw [Prod.norm_mk]; exact max_le hy hu
      have a := hl1 (x, u) (x', u) (hp x hx) (hp x' hx')
      have b := hl2 (x, u) (x', u) (hp x hx) (hp x' hx')
      rw [e] at a b
      have ha : 0 ≤ K1 * ‖x' - x‖ := by positivity
      have hb : 0 ≤ K2 * ‖x' - x‖ := by positivity
      rw [Real.norm_eq_abs] at a
      refine ⟨by linarith, fun j => ?_⟩
      have c := (norm_le_pi_norm (P.ineqConst (timeAt t0 dt i) x' u - P.ineqConst (timeAt t0 dt i) x u) j).trans b
      rw [Real.norm_eq_abs] at c
      have c' : |P.ineqConst (timeAt t0 dt i) x' u j - P.ineqConst (timeAt t0 dt i) x u j| ≤ K2 * ‖x' - x‖ := c
      linarith
    · exact ⟨0, le_rfl, fun h => absurd h hi⟩
  obtain ⟨K, hK, h⟩ := uniform_bound (Q := fun i K => i < N → ∀ (x x' : Vec n ℝ) (u : Vec (md (timeAt t0 dt i)) ℝ), ‖x‖ ≤ R → ‖x'‖ ≤ R →
      ‖u‖ ≤ R → |P.runningCost (timeAt t0 dt i) x' u - P.runningCost (timeAt t0 dt i) x u| ≤ K * ‖x' - x‖ ∧
      ∀ j, |P.ineqConst (timeAt t0 dt i) x' u j - P.ineqConst (timeAt t0 dt i) x u j| ≤ K * ‖x' - x‖)
    (fun i a b hab h hi x x' u hx hx' hu => by
      have := mul_le_mul_of_nonneg_right hab (norm_nonneg (x' - x))
      exact ⟨((h hi x x' u hx hx' hu).1).trans this, fun j => ((h hi x x' u hx hx' hu).2 j).trans this⟩) key N
  obtain ⟨K3, hK3, hl3⟩ := Cgmres.OdeOrder.lip_ball h3 R
  refine ⟨K + K3, by positivity, fun i hi x x' u hx hx' hu => ?_, fun x x' hx hx' => ?_⟩
  · have h' := h i hi.le hi x x' u hx hx' hu
    have := mul_nonneg hK3 (norm_nonneg (x' - x))
    exact ⟨by linarith [h'.1], fun j => by linarith [h'.2 j]⟩
  · have a := hl3 x x' hx hx'
    rw [Real.norm_eq_abs] at a
    have := mul_nonneg hK (norm_nonneg (x' - x))
    linarith

/-- For a strongly convex running cost the cost of a feasible trajectory bounds the distance of its inputs from the optimal ones. -/
theorem strong_dist (hP : ConvexProblem P) {μ : ℝ} (hμ : StrongCost P μ) (hdt : 0 ≤ dt)
    {y y' : ℕ → Vec n ℝ} {z z' : (i : ℕ) → Vec (md (timeAt t0 dt i)) ℝ} (hy : FeasibleTraj P t0 dt x0 N y z)
    (hy' : FeasibleTraj P t0 dt x0 N y' z')
    (hmin : ∀ a b, FeasibleTraj P t0 dt x0 N a b → trajCost P t0 dt N y' z' ≤ trajCost P t0 dt N a b) :
    dt * μ / 4 * ∑ i ∈ range N, (z i - z' i) ⬝ᵥ (z i - z' i) ≤ trajCost P t0 dt N y z - trajCost P t0 dt N y' z' := by
  have h1 := cost_mix (N := N) (x0 := x0) hP hμ hdt (θ := 1 / 2) (by norm_num) (by norm_num) z' z
  rw [← trajCost_congr hy.eq_rollOut, ← trajCost_congr hy'.eq_rollOut] at h1
  have h2 := hmin _ (fun i => z' i + (1 / 2 : ℝ) • (z i - z' i)) (⟨rfl, fun i _ => rfl, fun i hi j => by
    rw [roll_mix hP]
    refine (ineq_mix hP (by norm_num) (by norm_num) _ _ _ _ j).trans ?_
    have a := hy.ineq i hi j
    have b := hy'.ineq i hi j
    rw [hy.eq_rollOut i hi.le] at a
    rw [hy'.eq_rollOut i hi.le] at b
    linarith⟩ : FeasibleTraj P t0 dt x0 N (rollOut P t0 dt x0 fun i => z' i + (1 / 2 : ℝ) • (z i - z' i)) _)
  linarith

/-- **C140.**  Convex problem with a strictly feasible trajectory `(a, w)` (every constraint function at most `-σ < 0`): there is a constant
`C`, determined by the problem, the initial state, the strictly feasible trajectory and a bound `R` on the inputs, such that every call of
`solve` that returns `Succeeded` with a threshold of at most `1 / C` -- whatever the initial variable, the linear solver, the history of
the object and the other settings -- has a result within `C kkt_error_thre` of the optimum, with multipliers bounded by `C`,
provided the inputs of the result have size at most `R`. -/
theorem C140_near_optimal (hP : ConvexProblem P) (hdt : 0 ≤ dt) (hLip : LocLip P t0 dt N)
    {a : ℕ → Vec n ℝ} {w : (i : ℕ) → Vec (md (timeAt t0 dt i)) ℝ} {σ : ℝ} (hσ : 0 < σ) (ha0 : a 0 = x0)
    (ha : ∀ i < N, a (i + 1) = P.stateEq (timeAt t0 dt i) (a i) (w i))
    (hs : ∀ i < N, ∀ j, P.ineqConst (timeAt t0 dt i) (a i) (w i) j ≤ -σ) {R : ℝ} (hR : 0 ≤ R) (hw : ∀ i < N, ‖w i‖ ≤ R) :
    ∃ C, 1 ≤ C ∧ ∀ (L : GainSolver ℝ) (cfg : Config ℝ) (o o' : Obj n ℝ)
      (sc : Scratch n (fun i => md (timeAt t0 dt i)) (fun i => pd (timeAt t0 dt i)) ℝ) (init : VarL n ℝ),
      cfg.horizon.toNat = N → (cfg.initComplementary = true ∨ init.Pos) → C * cfg.kktErrorThre ≤ 1 →
      solve L P dt cfg o t0 sc x0 init = (o', .ok .succeeded) →
      ∃ v : Var n (fun i => md (timeAt t0 dt i)) (fun i => pd (timeAt t0 dt i)) ℝ, o'.var = v.out N ∧
        (∀ i < N, ∀ j, P.ineqConst (timeAt t0 dt i) (v.x i) (v.u i) j ≤ cfg.kktErrorThre) ∧
        ((∀ i < N, ‖v.u i‖ ≤ R) → NearOptimal P t0 dt x0 N R C cfg.kktErrorThre v) := by
  have hf : FeasibleTraj P t0 dt x0 N a w := ⟨ha0, ha, fun i hi j => (hs i hi j).trans (by linarith)⟩
  obtain ⟨C, hC, h⟩ := kkt_slater hP hdt hLip hσ (w := w) (x0 := x0)
    (fun i hi j => by rw [← hf.eq_rollOut i hi.le]; exact hs i hi j) hR hw
  refine ⟨C, hC, fun L cfg o o' sc init hN hp hthre hsol => ?_⟩
  obtain ⟨v, dF, dG, dL, dV, hv, hd, hk⟩ := C29_kkt hsol
  have hpos := (C28_positive hp hsol).1
  rw [hv] at hpos
  have hpos' := out_pos_nu hpos
  rw [hN] at hv hd hk hpos'
  exact ⟨v, hv, fun i hi j => (hk.each.2.2 i hi).2.2.2.2.2 j (hpos'.1 i hi j).le, h v dF dG dL dV _ hd hk hpos' hthre⟩

/-- **C140** (bounded inputs)  If the constraints bound the inputs, nothing has to be assumed about the result: cost, distance of the
states from the trajectory of the inputs and multipliers are as in `C140_near_optimal`, compared with every feasible trajectory. -/
theorem C140_limited (hP : ConvexProblem P) (hdt : 0 ≤ dt) (hLip : LocLip P t0 dt N)
    {a : ℕ → Vec n ℝ} {w : (i : ℕ) → Vec (md (timeAt t0 dt i)) ℝ} {σ : ℝ} (hσ : 0 < σ) (ha0 : a 0 = x0)
    (ha : ∀ i < N, a (i + 1) = P.stateEq (timeAt t0 dt i) (a i) (w i))
    (hs : ∀ i < N, ∀ j, P.ineqConst (timeAt t0 dt i) (a i) (w i) j ≤ -σ) {R : ℝ} (hR : 0 ≤ R)
    (hlim : ∀ i < N, ∀ x u, (∀ j, P.ineqConst (timeAt t0 dt i) x u j ≤ 1) → ‖u‖ ≤ R) :
    ∃ C, 1 ≤ C ∧ ∀ (L : GainSolver ℝ) (cfg : Config ℝ) (o o' : Obj n ℝ)
      (sc : Scratch n (fun i => md (timeAt t0 dt i)) (fun i => pd (timeAt t0 dt i)) ℝ) (init : VarL n ℝ),
      cfg.horizon.toNat = N → (cfg.initComplementary = true ∨ init.Pos) → C * cfg.kktErrorThre ≤ 1 →
      solve L P dt cfg o t0 sc x0 init = (o', .ok .succeeded) →
      ∃ v : Var n (fun i => md (timeAt t0 dt i)) (fun i => pd (timeAt t0 dt i)) ℝ, o'.var = v.out N ∧
        (∑ i ∈ range N, l1 (v.nu i)) ≤ C ∧ (∀ i ≤ N, ‖v.x i - rollOut P t0 dt x0 v.u i‖ ≤ C * cfg.kktErrorThre) ∧
        (∀ y z, FeasibleTraj P t0 dt x0 N y z →
          trajCost P t0 dt N v.x v.u ≤ trajCost P t0 dt N y z + C * cfg.kktErrorThre) ∧
        ∃ y z, FeasibleTraj P t0 dt x0 N y z ∧ trajCost P t0 dt N y z ≤ trajCost P t0 dt N v.x v.u + C * cfg.kktErrorThre ∧
          ∀ i < N, ‖z i - v.u i‖ ≤ C * cfg.kktErrorThre := by
  obtain ⟨C, hC, h⟩ := C140_near_optimal hP hdt hLip hσ ha0 ha hs hR
    (fun i hi => hlim i hi (a i) (w i) fun j => (hs i hi j).trans (by linarith))
  refine ⟨C, hC, fun L cfg o o' sc init hN hp hthre hsol => ?_⟩
  obtain ⟨v, h1, h2, h3⟩ := h L cfg o o' sc init hN hp hthre hsol
  have htol : cfg.kktErrorThre ≤ 1 := by
    by_contra hc
    rw [not_le] at hc
    nlinarith
  have h4 := h3 fun i hi => hlim i hi _ _ fun j => (h2 i hi j).trans htol
  refine ⟨v, h1, h4.mult, h4.states, fun y z hy => h4.upper y z hy fun i hi => hlim i hi _ _ fun j => (hy.ineq i hi j).trans zero_le_one, ?_⟩
  obtain ⟨y, z, g1, -, g2, g3⟩ := h4.lower
  exact ⟨y, z, g1, g2, g3⟩

/-- **C140** (inputs)  If the running cost is moreover strongly convex in the input, the inputs of the result are within
`√(C kkt_error_thre)` of those of the optimal trajectory. -/
theorem C140_inputs (hP : ConvexProblem P) {μ : ℝ} (hμ0 : 0 < μ) (hμ : StrongCost P μ) (hdt : 0 < dt) (hLip : LocLip P t0 dt N)
    {a : ℕ → Vec n ℝ} {w : (i : ℕ) → Vec (md (timeAt t0 dt i)) ℝ} {σ : ℝ} (hσ : 0 < σ) (ha0 : a 0 = x0)
    (ha : ∀ i < N, a (i + 1) = P.stateEq (timeAt t0 dt i) (a i) (w i))
    (hs : ∀ i < N, ∀ j, P.ineqConst (timeAt t0 dt i) (a i) (w i) j ≤ -σ) {R : ℝ} (hR : 0 ≤ R)
    (hlim : ∀ i < N, ∀ x u, (∀ j, P.ineqConst (timeAt t0 dt i) x u j ≤ 1) → ‖u‖ ≤ R) :
    ∃ C, 1 ≤ C ∧ ∀ (L : GainSolver ℝ) (cfg : Config ℝ) (o o' : Obj n ℝ)
      (sc : Scratch n (fun i => md (timeAt t0 dt i)) (fun i => pd (timeAt t0 dt i)) ℝ) (init : VarL n ℝ),
      cfg.horizon.toNat = N → (cfg.initComplementary = true ∨ init.Pos) → C * cfg.kktErrorThre ≤ 1 →
      solve L P dt cfg o t0 sc x0 init = (o', .ok .succeeded) →
      ∃ v : Var n (fun i => md (timeAt t0 dt i)) (fun i => pd (timeAt t0 dt i)) ℝ, o'.var = v.out N ∧
        ∀ y' z', FeasibleTraj P t0 dt x0 N y' z' →
          (∀ y z, FeasibleTraj P t0 dt x0 N y z → trajCost P t0 dt N y' z' ≤ trajCost P t0 dt N y z) →
          ∑ i ∈ range N, (v.u i - z' i) ⬝ᵥ (v.u i - z' i) ≤ C * cfg.kktErrorThre := by
  obtain ⟨C, hC, h⟩ := C140_limited hP hdt.le hLip hσ ha0 ha hs hR hlim
  set S : ℝ := ∑ i ∈ range N, (md (timeAt t0 dt i) : ℝ) with hS
  have hS0 : 0 ≤ S := sum_nonneg fun _ _ => Nat.cast_nonneg _
  have hk0 : 0 < dt * μ / 4 := by positivity
  refine ⟨C + 2 * C * S + 4 * C / (dt * μ / 4), by
    have h1 : 0 ≤ 2 * C * S := by positivity
    have h2 : 0 ≤ 4 * C / (dt * μ / 4) := by positivity
    linarith, fun L cfg o o' sc init hN hp hthre hsol => ?_⟩
  have h1 : 0 ≤ 2 * C * S := by positivity
  have h2 : 0 ≤ 4 * C / (dt * μ / 4) := by positivity
  obtain ⟨v0, dF, dG, dL, dV, -, -, hk⟩ := C29_kkt hsol
  have htol : 0 ≤ cfg.kktErrorThre := (Real.sqrt_nonneg _).trans hk
  have hCt : C * cfg.kktErrorThre ≤ 1 :=
    (mul_le_mul_of_nonneg_right (by linarith) htol).trans hthre
  have hCt0 : 0 ≤ C * cfg.kktErrorThre := by positivity
  obtain ⟨v, g1, -, -, g2, y, z, g3, g4, g5⟩ := h L cfg o o' sc init hN hp hCt hsol
  refine ⟨v, g1, fun y' z' hy' hmin => ?_⟩
  have g6 := strong_dist hP hμ hdt.le g3 hy' hmin
  have g7 := g2 y' z' hy'
  have g8 : ∑ i ∈ range N, (z i - z' i) ⬝ᵥ (z i - z' i) ≤ 2 * C / (dt * μ / 4) * cfg.kktErrorThre := by
    rw [div_mul_eq_mul_div, le_div_iff₀ hk0]
    linarith
  have g9 : ∑ i ∈ range N, (z i - v.u i) ⬝ᵥ (z i - v.u i) ≤ C * S * cfg.kktErrorThre := by
    have : ∑ i ∈ range N, (z i - v.u i) ⬝ᵥ (z i - v.u i) ≤ ∑ i ∈ range N, (md (timeAt t0 dt i) : ℝ) * (C * cfg.kktErrorThre) := by
      refine sum_le_sum fun i hi => ?_
      have hi := mem_range.1 hi
      have : (z i - v.u i) ⬝ᵥ (z i - v.u i) ≤ ∑ _j : Fin (md (timeAt t0 dt i)), C * cfg.kktErrorThre := by
        refine sum_le_sum fun j _ => ?_
        have a1 := (norm_le_pi_norm (z i - v.u i) j).trans (g5 i hi)
        rw [Real.norm_eq_abs] at a1
        rw [← abs_mul_abs_self]
        have a2 := mul_le_mul a1 (a1.trans hCt) (abs_nonneg _) hCt0
        rwa [mul_one] at a2
      rwa [sum_const, card_univ, Fintype.card_fin, nsmul_eq_mul] at this
    rw [← sum_mul, ← hS] at this
    linarith
  have g10 : ∑ i ∈ range N, (v.u i - z' i) ⬝ᵥ (v.u i - z' i) ≤
      ∑ i ∈ range N, (2 * ((z i - v.u i) ⬝ᵥ (z i - v.u i)) + 2 * ((z i - z' i) ⬝ᵥ (z i - z' i))) := by
    refine sum_le_sum fun i _ => ?_
    unfold dotProduct
    rw [mul_sum, mul_sum, ← sum_add_distrib]
    refine sum_le_sum fun j _ => ?_
    simp only [Pi.sub_apply]
    nlinarith [sq_nonneg ((z i j - v.u i j) + (z i j - z' i j))]
  rw [sum_add_distrib, ← mul_sum, ← mul_sum] at g10
  have g11 : 2 * (2 * C / (dt * μ / 4) * cfg.kktErrorThre) = 4 * C / (dt * μ / 4) * cfg.kktErrorThre := by ring
  linarith

end Main

/-! ## Without a strictly feasible trajectory -/

section Pinch
variable {n : ℕ} {md pd : ℝ → ℕ} {L : GainSolver ℝ} {P : Callbacks n md pd} {dt : ℝ} {cfg : Config ℝ} {o : Obj n ℝ}
  {t0 : ℝ} {sc : Scratch n (fun i => md (timeAt t0 dt i)) (fun i => pd (timeAt t0 dt i)) ℝ} {x0 : Vec n ℝ} {init : VarL n ℝ}

/-- A start that satisfies the KKT test is returned unchanged. -/
theorem start_accepted (hU : cfg.updateBarrierEps = false) (hI : cfg.initComplementary = false) (hm : 1 ≤ cfg.maxIter)
    (hc : checkVariable md pd t0 dt cfg.horizon init = .ok ())
    (hk : ∀ e, leb (kktOf init.us.length x0 (prepared init.us.length (stagesOf P t0 dt init.us.length)
      (initSolver (m := fun i => md (timeAt t0 dt i)) (p := fun i => pd (timeAt t0 dt i)) init o.eps sc) e)) cfg.kktErrorThre = true) :
    ∃ o', solve L P dt cfg o t0 sc x0 init = (o', .ok .succeeded) ∧
      o'.var = (initSolver (m := fun i => md (timeAt t0 dt i)) (p := fun i => pd (timeAt t0 dt i)) init o.eps sc).var.out init.us.length := by
  set N := init.us.length with hN
  set w0 := initSolver (m := fun i => md (timeAt t0 dt i)) (p := fun i => pd (timeAt t0 dt i)) init o.eps sc with hw0
  have h1 : ∃ w', procOnce L N cfg (stagesOf P t0 dt N) x0 1 w0 = .ok (w', .succeeded) ∧ w'.var = w0.var := by
    have hout := procOnce_out (L := L) (N := N) (cfg := cfg) (S := stagesOf P t0 dt N) (x0 := x0) 1 w0
    generalize hx : procOnce L N cfg (stagesOf P t0 dt N) x0 1 w0 = x at hout
    cases hout with
    | ubEps hp =>
      unfold prepare at hp
      rw [hU] at hp
      cases hp
    | succeeded e he hk => exact ⟨_, rfl, rfl⟩
    | backward e he hk2 => rw [hk e] at hk2; cases hk2
    | forward e he hk2 => rw [hk e] at hk2; cases hk2
    | update e he hk2 => rw [hk e] at hk2; cases hk2
  obtain ⟨w1, h1, h2⟩ := h1
  obtain ⟨r, hr⟩ : ∃ r, cfg.maxIter.toNat = r + 1 := ⟨cfg.maxIter.toNat - 1, by omega⟩
  obtain ⟨e1, he1, _, ht1, _⟩ := procOnce_frame h1
  have ht : w1.trace ≠ [] := by rw [ht1]; simp
  have hopt : optLoop L N cfg (stagesOf P t0 dt N) x0 cfg.maxIter.toNat 1 .uninitialized w0 =
      .ok (w1, .succeeded) := by
    rw [hr]; unfold optLoop; rw [h1]; simp
  refine ⟨{ var := w1.var.out N, trace := w1.trace, eps := w1.eps }, ?_, ?_⟩
  · unfold solve runSolver
    simp only [hI, Bool.false_eq_true, if_false, hc, ← hN, ← hw0, hopt, Res.bind_ok, ht, and_false]
    rfl
  · dsimp only
    rw [h2]

/-- One state that does not move, one input with cost `u`, and the constraint `u² ≤ 0`. -/
noncomputable def pinch : Callbacks 1 (fun _ : ℝ => 1) (fun _ => 1) where
  stateEq _ x _ := x
  runningCost _ _ u := u 0
  terminalCost _ _ := 0
  ineqConst _ _ u := fun _ => u 0 ^ 2
  stateEqDeriv _ _ _ _ := { Fx := 1, Fu := 0 }
  ineqConstDeriv _ _ u _ := { C := 0, D := fun _ _ => 2 * u 0 }
  runningCostDeriv _ _ _ _ := { Lx := 0, Lu := fun _ => 1, Lxx := 0, Luu := 0, Lxu := 0 }
  terminalCostDeriv _ _ _ := { Vx := 0, Vxx := 0 }

theorem pinch_convex : ConvexProblem pinch where
  dyn _ x u x' u' _ := by simp [pinch]
  ineq _ x u x' u' _ j := by
    simp only [pinch, zero_mulVec, Pi.zero_apply]
    simp only [mulVec, dotProduct, univ_unique, sum_singleton, Pi.sub_apply, Fin.default_eq_zero]
    nlinarith [sq_nonneg (u' 0 - u 0)]
  cost _ x u x' u' _ := by simp [pinch, dotProduct]
  term _ x x' _ := by simp [pinch]

/-- The start: input `-ε`, slack `ε³`, multiplier `1 / (2 ε)`. -/
noncomputable def pinchInit (ε : ℝ) : VarL 1 ℝ where
  xs := [fun _ => 0, fun _ => 0]
  us := [⟨1, fun _ => -ε⟩]
  lams := [fun _ => 0, fun _ => 0]
  ss := [⟨1, fun _ => ε ^ 3⟩]
  nus := [⟨1, fun _ => 1 / (2 * ε)⟩]

/-- **C140** (a strictly feasible trajectory is needed)  For the convex problem `pinch`, whose only feasible input is 0, no constant will
do: for every `C` there are a threshold of at most `1 / C` and a positive start with which `solve` returns `Succeeded`, with a
multiplier larger than `C` and a cost more than `C kkt_error_thre` below the optimum (the result is that much infeasible). -/
theorem C140_slater_fails (L : GainSolver ℝ) (o : Obj 1 ℝ)
    (sc : Scratch 1 (fun i => (fun _ : ℝ => 1) (timeAt 0 1 i)) (fun i => (fun _ : ℝ => 1) (timeAt 0 1 i)) ℝ) (C : ℝ) :
    ∃ (thre ε : ℝ) (o' : Obj 1 ℝ) (v : Var 1 (fun i => (fun _ : ℝ => 1) (timeAt 0 1 i)) (fun i => (fun _ : ℝ => 1) (timeAt 0 1 i)) ℝ),
      0 < thre ∧ C * thre ≤ 1 ∧ (pinchInit ε).Pos ∧
      solve L pinch 1 { (defaultConfig 1 10 : Config ℝ) with updateBarrierEps := false, kktErrorThre := thre } o 0 sc (fun _ => 0) (pinchInit ε) =
        (o', .ok .succeeded) ∧ o'.var = v.out 1 ∧ C < l1 (v.nu 0) ∧
      (∃ y z, FeasibleTraj pinch 0 1 (fun _ => 0) 1 y z) ∧
      ∀ y z, FeasibleTraj pinch 0 1 (fun _ => 0) 1 y z → trajCost pinch 0 1 1 v.x v.u < trajCost pinch 0 1 1 y z - C * thre := by
  set ε : ℝ := 1 / (4 * (|C| + 1)) with hε
  have hC0 := abs_nonneg C
  have hε0 : 0 < ε := by positivity
  have hεC : ε * (4 * (|C| + 1)) = 1 := by rw [hε]; field_simp
  have hε1 : ε ≤ 1 / 4 := by nlinarith
  have hCε : C * ε ≤ 1 / 4 := by nlinarith [le_abs_self C]
  have hpos : (pinchInit ε).Pos := by
    constructor <;>
    · intro e he j
      simp only [pinchInit, List.mem_cons, List.not_mem_nil, or_false] at he
      subst he
      show (0 : ℝ) < _
      positivity
  set cfg : Config ℝ := { (defaultConfig 1 10 : Config ℝ) with updateBarrierEps := false, kktErrorThre := 3 * ε ^ 2 } with hcfg
  have hl : LengthsOk cfg.horizon (pinchInit ε) := by simp [LengthsOk, pinchInit, hcfg, defaultConfig]
  have hd : DimsOk (fun _ : ℝ => 1) (fun _ => 1) 0 1 (pinchInit ε) := by
    refine ⟨?_, ?_, ?_⟩ <;>
    · intro i hi
      simp only [pinchInit, List.length_cons, List.length_nil] at hi
      match i, hi with
      | 0, _ => rfl
  have hn : NonNeg (pinchInit ε) :=
    ⟨fun e he j => by simpa using (hpos.1 e he j).le, fun e he j => by simpa using (hpos.2 e he j).le⟩
  have hc : checkVariable (fun _ : ℝ => 1) (fun _ => 1) 0 1 cfg.horizon (pinchInit ε) = .ok () :=
    (checkVariable_iff (pinchInit ε)).2.2.2 ⟨hl, hd, hn⟩
  set w0 := initSolver (m := fun i => (fun _ : ℝ => 1) (timeAt 0 1 i)) (p := fun i => (fun _ : ℝ => 1) (timeAt 0 1 i)) (pinchInit ε)
    o.eps sc with hw0
  have hx : w0.var.x 0 = fun _ => 0 := rfl
  have hx1 : w0.var.x 1 = fun _ => 0 := rfl
  have hu : w0.var.u 0 = fun _ => -ε := rfl
  have hl0 : w0.var.lam 0 = fun _ => 0 := rfl
  have hl1 : w0.var.lam 1 = fun _ => 0 := rfl
  have hs0 : w0.var.s 0 = fun _ => ε ^ 3 := rfl
  have hn0 : w0.var.nu 0 = fun _ => 1 / (2 * ε) := rfl
  have hk : ∀ e, leb (kktOf 1 (fun _ => 0) (prepared 1 (stagesOf pinch 0 1 1) w0 e)) cfg.kktErrorThre = true := by
    intro e
    rw [leb_real]
    refine (kktOf_prepared (P := pinch) (x0 := fun _ => 0) (dt := 1) (t0 := 0) 1 w0 e _).2 ?_
    unfold KktWithin stageResidual
    simp only [sum_range_one, hx, hx1, hu, hl0, hl1, hs0, hn0, zero_add]
    simp [prepared, calcCoeff, calcTerm, stagesOf, pinch]
    rw [congrFun hu 0]
    have a1 : ε ^ 3 * (ε⁻¹ * 2⁻¹) = ε ^ 2 / 2 := by field_simp
    have a2 : 1 + 2 * -ε * (ε⁻¹ * 2⁻¹) = 0 := by field_simp; ring
    rw [a1, a2, max_eq_left (by positivity)]
    show _ ≤ 3 * ε ^ 2
    rw [Real.sqrt_le_left (by positivity)]
    have a3 : ε ^ 3 ≤ ε ^ 2 := by nlinarith [sq_nonneg ε]
    have a4 : 0 < ε ^ 3 := by positivity
    nlinarith [sq_nonneg (ε ^ 2)]
  obtain ⟨o', h1, h2⟩ := start_accepted (L := L) (P := pinch) (cfg := cfg) (o := o) (sc := sc) (x0 := fun _ => 0) rfl rfl (show (1 : ℤ) ≤ 10 by norm_num) hc hk
  refine ⟨3 * ε ^ 2, ε, o', w0.var, by positivity, by nlinarith, hpos, h1, h2, ?_, ⟨fun _ _ => 0, fun _ _ => 0, rfl, fun _ _ => rfl, ?_⟩, ?_⟩
  · rw [hn0]
    simp only [l1, univ_unique, sum_singleton]
    rw [abs_of_pos (by positivity), lt_div_iff₀ (by positivity)]
    linarith
  · intro i _ j
    simp [pinch]
  · intro y z hy
    have hz : z 0 0 = 0 := by
      have : z 0 0 ^ 2 ≤ 0 := hy.ineq 0 one_pos 0
      exact pow_eq_zero_iff (two_ne_zero) |>.1 (le_antisymm this (sq_nonneg _))
    have e1 : trajCost pinch 0 1 1 y z = 0 := by
      simp [trajCost, pinch, hz]
    have e2 : trajCost pinch 0 1 1 w0.var.x w0.var.u = -ε := by
      simp [trajCost, pinch, hu]
    rw [e1, e2]
    nlinarith

end Pinch

/-! ## Examples -/

section Examples

theorem box_locLip (t0 dt : ℝ) (N : ℕ) : LocLip box t0 dt N := by
  refine LocLip.of_contDiff (fun i _ => ?_) (fun i _ => ?_) ?_
  · show ContDiff ℝ 1 fun p : Vec 2 ℝ × Vec 1 ℝ => 1 / 2 * (p.1 ⬝ᵥ p.1) + 1 / 2 * (p.2 ⬝ᵥ p.2)
    unfold dotProduct
    fun_prop
  · show ContDiff ℝ 1 fun p : Vec 2 ℝ × Vec 1 ℝ => !![1; -1] *ᵥ p.2 - 1
    unfold mulVec dotProduct
    fun_prop
  · show ContDiff ℝ 1 fun x : Vec 2 ℝ => 1 / 2 * (x ⬝ᵥ x)
    unfold dotProduct
    fun_prop

theorem box_strong : StrongCost box 1 := by
  intro t x u x' u' b
  simp only [box, dbl, dotProduct_sub]
  have h1 := dot_self_nonneg (x' - x)
  simp only [sub_dotProduct, dotProduct_sub] at h1 ⊢
  rw [dotProduct_comm x' x] at h1
  rw [dotProduct_comm u' u]
  linarith

/-- C140 for the example: there is a constant for every initial state. -/
example (x0 : Vec 2 ℝ) : ∃ C, 1 ≤ C ∧ ∀ (L : GainSolver ℝ) (thre : ℝ) (o o' : Obj 2 ℝ)
      (sc : Scratch 2 (fun i => (fun _ : ℝ => 1) (timeAt 0 1 i)) (fun i => (fun _ : ℝ => 2) (timeAt 0 1 i)) ℝ),
      C * thre ≤ 1 → solve L box 1 { exCfg with kktErrorThre := thre } o 0 sc x0 (exInit 2) = (o', .ok .succeeded) →
      ∃ v : Var 2 (fun i => (fun _ : ℝ => 1) (timeAt 0 1 i)) (fun i => (fun _ : ℝ => 2) (timeAt 0 1 i)) ℝ, o'.var = v.out 2 ∧
        ∀ y' z', FeasibleTraj box 0 1 x0 2 y' z' →
          (∀ y z, FeasibleTraj box 0 1 x0 2 y z → trajCost box 0 1 2 y' z' ≤ trajCost box 0 1 2 y z) →
          ∑ i ∈ range 2, (v.u i - z' i) ⬝ᵥ (v.u i - z' i) ≤ C * thre := by
  obtain ⟨C, hC, h⟩ := C140_inputs (P := box) (t0 := 0) (dt := 1) (N := 2) (x0 := x0) (μ := 1) (σ := 1) (R := 2)
    (a := rollOut box 0 1 x0 fun _ => 0) (w := fun _ => 0)
    (box_convexProblem 2 _) one_pos box_strong one_pos (box_locLip 0 1 2) one_pos rfl (fun _ _ => rfl)
    (fun i _ j => by
      show (!![1; -1] *ᵥ (0 : Vec 1 ℝ) - 1) j ≤ -1
      simp) (by norm_num) (fun i _ x u hu => by
      refine norm_le_of_abs (by norm_num) fun j => ?_
      have h1 : (!![1; -1] *ᵥ u - 1) (0 : Fin 2) ≤ 1 := hu 0
      have h2 : (!![1; -1] *ᵥ u - 1) (1 : Fin 2) ≤ 1 := hu 1
      obtain rfl : j = 0 := Subsingleton.elim _ _
      simp [dotProduct] at h1 h2
      exact abs_le.2 ⟨by linarith, by linarith⟩)
  exact ⟨C, hC, fun L thre o o' sc ht hs => h L { exCfg with kktErrorThre := thre } o o' sc (exInit 2) rfl (.inr (exPos 2)) ht hs⟩

end Examples
end Nmpc.FMPC
