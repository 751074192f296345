import Verif.CGMRES.Continuation

/-!
# Convergence of `setup` (C62), in exact arithmetic
-/

namespace Nmpc.Cgmres

open Finset Matrix

variable {n m N : ℕ} (L : Gmres.Dense ℝ) (P : Problem n m ℝ) (ode : Ode ℝ) (cfg : Config ℝ)

theorem norm2_neg (v : Vec m ℝ) : Gmres.norm2 (fun k => -v k) = Gmres.norm2 v := by
  change ‖WithLp.toLp 2 (-v)‖ = _
  rw [WithLp.toLp_neg, norm_neg]
  rfl

theorem norm2_nonneg (v : Vec m ℝ) : 0 ≤ Gmres.norm2 v := norm_nonneg _

theorem setupLoop_converges (hL : L.Exact) (hd : cfg.delta ≠ 0) (lmd : Vec n ℝ) (M : Mat m m ℝ) (c : Vec m ℝ)
    (hM : IsUnit M.det) (haff : ∀ u, P.dhdu 0 P.x0 u lmd = M *ᵥ u + c) (r : ℕ) (s : SetupState m ℝ)
    (hs : Gmres.norm2 (P.dhdu 0 P.x0 s.u lmd) ≤ (10 ^ 10) ^ r / 10 ^ 6) :
    ∃ s', setupLoop L P cfg lmd (r + 1) s = .ok s' ∧ s'.dhdu = P.dhdu 0 P.x0 s'.u lmd ∧ Gmres.norm2 s'.dhdu ≤ 1 / 10 ^ 6 := by
  induction r generalizing s with
  | zero =>
    rw [setupLoop]
    have : leb (vnorm (P.dhdu 0 P.x0 s.u lmd)) (lit (1 / 10 ^ 6)) = true := by
      rw [leb_real, Gmres.vnorm_norm2]; simpa using hs
    rw [if_pos this]
    exact ⟨_, rfl, rfl, by simpa using hs⟩
  | succ r ih =>
    rw [setupLoop]
    split
    · rename_i h
      rw [leb_real, Gmres.vnorm_norm2] at h
      exact ⟨_, rfl, rfl, by simpa using h⟩
    · have hA : setupAmul P cfg lmd s.u (P.dhdu 0 P.x0 s.u lmd) = FOps.mulVec M := by
        funext v k
        simp only [setupAmul, smulv_real]
        rw [haff, haff, mulVec_add, mulVec_smul]
        simp only [Pi.add_apply, Pi.smul_apply, smul_eq_mul, mulVec_real]
        field_simp
        ring
      obtain ⟨q, hq⟩ := (Gmres.C46_total L (gmresConfig (m : ℤ)) (FOps.mulVec M)
        (fun k => -(P.dhdu 0 P.x0 s.u lmd) k) s.deltaU).2 (by simp [gmresConfig])
      rw [hA, hq]
      dsimp only [Res.bind_ok]
      have key := Gmres.C48_solves L (gmresConfig (m : ℤ)) _ _ hL M hM (by simp [gmresConfig]) (by simp [gmresConfig]) hq
      refine ih _ ?_
      have e : P.dhdu 0 P.x0 (s.u + q.x) lmd = fun k => -((fun k => -(P.dhdu 0 P.x0 s.u lmd) k) - M *ᵥ q.x) k := by
        rw [haff, haff, mulVec_add]
        funext k
        simp only [Pi.add_apply, Pi.sub_apply]
        ring
      rw [e, norm2_neg]
      refine key.trans ?_
      rw [norm2_neg]
      have h1 : (gmresConfig (m : ℤ) : Gmres.Config ℝ).eps = 1 / 10 ^ 10 := by simp [gmresConfig]
      rw [h1]
      calc 1 / 10 ^ 10 * Gmres.norm2 (P.dhdu 0 P.x0 s.u lmd) ≤ 1 / 10 ^ 10 * ((10 ^ 10) ^ (r + 1) / 10 ^ 6) :=
            mul_le_mul_of_nonneg_left hs (by positivity)
        _ = _ := by rw [pow_succ]; ring

/-- **C62**: if `∂H/∂u` at the initial point is affine in the input with an invertible matrix and its norm at the initial guess is at most
`10^984` (every finite double is smaller), then `setup` finds, with exact arithmetic, an input where this norm is at most 1e-6; all stages get
this input, the stored list is the true one, and the residual over the horizon at time zero has this value in every stage. -/
theorem C62_setup_converges (hL : L.Exact) (hd : cfg.delta ≠ 0) (ho : ode.ZeroStep) (M : Mat m m ℝ) (c : Vec m ℝ)
    (hM : IsUnit M.det) (haff : ∀ u, P.dhdu 0 P.x0 u (P.dphidx 0 P.x0) = M *ᵥ u + c)
    (h0 : Gmres.norm2 (P.dhdu 0 P.x0 P.u0 (P.dphidx 0 P.x0)) ≤ 10 ^ 984) (N : ℕ) :
    ∃ s u, setup L P cfg N = .ok (s, u) ∧ Gmres.norm2 (P.dhdu 0 P.x0 u (P.dphidx 0 P.x0)) ≤ 1 / 10 ^ 6 ∧
      ∀ i, s.uList i = u ∧ s.dhdu i = P.dhdu 0 P.x0 u (P.dphidx 0 P.x0) ∧ dhduList P ode cfg 0 P.x0 s.uList i = s.dhdu i := by
  obtain ⟨s, hs, h1, h2⟩ := setupLoop_converges L P cfg hL hd (P.dphidx 0 P.x0) M c hM haff 99
    { u := P.u0, deltaU := fun _ => 0, dhdu := fun _ => 0 } (by
      refine h0.trans (le_of_eq ?_)
      rw [← pow_mul, eq_div_iff (by positivity), ← pow_add])
  refine ⟨_, _, by unfold setup; rw [hs]; rfl, by rw [← h1]; exact h2, fun i => ⟨rfl, h1, ?_⟩⟩
  rw [(C50_initial P ode cfg ho P.x0 _).2]
  exact h1.symm

end Nmpc.Cgmres
