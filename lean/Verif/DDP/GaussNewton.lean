import Verif.DDP.BigO
import Verif.DDP.Global

/-!
# DDP with nonlinear dynamics near a solution: definitions and bounds on the backward pass

DDP does not use the second derivatives of the dynamics (they are computed but never read), so near a solution it is a Gauss-Newton method.
-/

namespace Nmpc.DDP

set_option linter.unusedSectionVars false

open Matrix Finset Asymptotics Filter Topology

/-- The linearised dynamics applied to a deviation. -/
noncomputable def FDeriv.app {n k : ℕ} (F : FDeriv n k ℝ) (wx : Vec n ℝ) (wu : Vec k ℝ) : Vec n ℝ := F.Fx *ᵥ wx + F.Fu *ᵥ wu

theorem FDeriv.app_add {n k : ℕ} (F : FDeriv n k ℝ) (x y : Vec n ℝ) (u v : Vec k ℝ) :
    F.app (x + y) (u + v) = F.app x u + F.app y v := by simp only [FDeriv.app, mulVec_add]; abel

theorem FDeriv.app_neg {n k : ℕ} (F : FDeriv n k ℝ) (x : Vec n ℝ) (u : Vec k ℝ) : F.app (-x) (-u) = -F.app x u := by
  simp only [FDeriv.app, mulVec_neg]; abel

variable {n : ℕ} {m : ℕ → ℕ}

/-- The hypotheses on a problem near the trajectory `xs`, `us` (stage costs `l`, terminal cost `φ`, dynamics `f` with derivatives `DF`,
`DL`, `DV`): the derivatives are correct in the ball of radius `r`, the Jacobians of the dynamics and the second derivatives of the
costs are `M`-Lipschitz, the second derivatives of the costs are positive semidefinite and at least `μ` in the inputs, and the
second-order cost model is at least `ρ` on the solutions of the linearised dynamics.  The trajectory satisfies the first-order
optimality conditions with the costates `lam`, and the Jacobian of the dynamics weighted with the costates is `θ`-Lipschitz. -/
structure GNRegion (N : ℕ) (S : Stages n m ℝ) (DF : (i : ℕ) → Vec n ℝ → Vec (m i) ℝ → FDeriv n (m i) ℝ)
    (DL : (i : ℕ) → Vec n ℝ → Vec (m i) ℝ → LDeriv n (m i) ℝ) (DV : Vec n ℝ → VDeriv n ℝ)
    (xs : ℕ → Vec n ℝ) (us : (i : ℕ) → Vec (m i) ℝ) (lam : ℕ → Vec n ℝ) (r ρ μ θ M : ℝ) : Prop where
  jac : ∀ i < N, ∀ x u, sq2 (x - xs i) (u - us i) ≤ r ^ 2 → IsJac2 (S.f i) x u (DF i x u).Fx (DF i x u).Fu
  lip : ∀ i < N, ∀ x u x' u', sq2 (x - xs i) (u - us i) ≤ r ^ 2 → sq2 (x' - xs i) (u' - us i) ≤ r ^ 2 → ∀ z wx wu,
    |z ⬝ᵥ ((DF i x' u').app wx wu - (DF i x u).app wx wu)| ≤ M * √(z ⬝ᵥ z) * √(sq2 (x' - x) (u' - u)) * √(sq2 wx wu)
  weight : ∀ i < N, ∀ x u x' u', sq2 (x - xs i) (u - us i) ≤ r ^ 2 → sq2 (x' - xs i) (u' - us i) ≤ r ^ 2 → ∀ wx wu,
    |lam (i + 1) ⬝ᵥ ((DF i x' u').app wx wu - (DF i x u).app wx wu)| ≤ θ * √(sq2 (x' - x) (u' - u)) * √(sq2 wx wu)
  run : ∀ i < N, TwiceSmooth (S.l i) (DL i) (xs i) (us i) r M
  term : TwiceSmooth (fun x (_ : Vec 0 ℝ) => S.φ x) (fun x _ => (DV x).toL) (xs N) 0 r M
  convex : ∀ i < N, ∀ x u, sq2 (x - xs i) (u - us i) ≤ r ^ 2 → ∀ dx du,
    0 ≤ dx ⬝ᵥ (DL i x u).Lxx *ᵥ dx + 2 * (dx ⬝ᵥ (DL i x u).Lxu *ᵥ du) + du ⬝ᵥ (DL i x u).Luu *ᵥ du
  input : ∀ i < N, ∀ x u, sq2 (x - xs i) (u - us i) ≤ r ^ 2 → ∀ v, μ * (v ⬝ᵥ v) ≤ v ⬝ᵥ (DL i x u).Luu *ᵥ v
  termConvex : ∀ x, (x - xs N) ⬝ᵥ (x - xs N) ≤ r ^ 2 → (DV x).Vxx.PosSemidef
  curv : ∀ (x : ℕ → Vec n ℝ) (u : (i : ℕ) → Vec (m i) ℝ), (∀ i < N, sq2 (x i - xs i) (u i - us i) ≤ r ^ 2) →
    (x N - xs N) ⬝ᵥ (x N - xs N) ≤ r ^ 2 → ∀ (ex : ℕ → Vec n ℝ) (eu : (i : ℕ) → Vec (m i) ℝ), ex 0 = 0 →
    (∀ i < N, ex (i + 1) = (DF i (x i) (u i)).app (ex i) (eu i)) →
    ρ * (∑ i ∈ range N, (ex i ⬝ᵥ ex i + eu i ⬝ᵥ eu i) + ex N ⬝ᵥ ex N) ≤
      ∑ i ∈ range N, (ex i ⬝ᵥ (DL i (x i) (u i)).Lxx *ᵥ ex i + 2 * (ex i ⬝ᵥ (DL i (x i) (u i)).Lxu *ᵥ eu i) +
        eu i ⬝ᵥ (DL i (x i) (u i)).Luu *ᵥ eu i) + ex N ⬝ᵥ (DV (x N)).Vxx *ᵥ ex N
  lamN : lam N = (DV (xs N)).Vx
  lamX : ∀ i < N, lam i = (DL i (xs i) (us i)).Lx + (DF i (xs i) (us i)).Fxᵀ *ᵥ lam (i + 1)
  lamU : ∀ i < N, (DL i (xs i) (us i)).Lu + (DF i (xs i) (us i)).Fuᵀ *ᵥ lam (i + 1) = 0

/-- A trajectory with the derivatives along it and the value functions and gains of a backward pass without regularisation. -/
structure GNPt (L : LLT ℝ) (N : ℕ) (cfg : Config ℝ) (S : Stages n m ℝ) (DF : (i : ℕ) → Vec n ℝ → Vec (m i) ℝ → FDeriv n (m i) ℝ)
    (DL : (i : ℕ) → Vec n ℝ → Vec (m i) ℝ → LDeriv n (m i) ℝ) (DV : Vec n ℝ → VDeriv n ℝ) (x0 : Vec n ℝ) where
  c : Ctrl n m ℝ
  d : Derivs n m ℝ
  V : ℕ → VDeriv n ℝ
  g : Gains n m ℝ
  cons : Consistent N S x0 c
  dF : ∀ i < N, d.F i = DF i (c.x i) (c.u i)
  dL : ∀ i < N, d.L i = DL i (c.x i) (c.u i)
  dV : d.V = DV (c.x N)
  chain : Chain L N cfg S c d 0 N V g
  VN : V N = d.V

variable {L : LLT ℝ} {N : ℕ} {cfg : Config ℝ} {S : Stages n m ℝ} {DF : (i : ℕ) → Vec n ℝ → Vec (m i) ℝ → FDeriv n (m i) ℝ}
  {DL : (i : ℕ) → Vec n ℝ → Vec (m i) ℝ → LDeriv n (m i) ℝ} {DV : Vec n ℝ → VDeriv n ℝ} {x0 : Vec n ℝ}
  {cs : Ctrl n m ℝ} {lam : ℕ → Vec n ℝ} {r ρ μ θ M : ℝ}

/-- Distance of the trajectory from the solution. -/
noncomputable def GNPt.dist (cs : Ctrl n m ℝ) (p : GNPt L N cfg S DF DL DV x0) : ℝ := √(devSq N (devOf cs p.c))

/-- The trajectory tends to the solution. -/
noncomputable def gnNear (cs : Ctrl n m ℝ) : Filter (GNPt L N cfg S DF DL DV x0) := comap (GNPt.dist cs) (𝓝 0)

theorem GNPt.dist_nonneg (p : GNPt L N cfg S DF DL DV x0) : 0 ≤ p.dist cs := Real.sqrt_nonneg _

theorem gnNear_iff {P : GNPt L N cfg S DF DL DV x0 → Prop} :
    (∀ᶠ p in gnNear cs, P p) ↔ ∃ q > 0, ∀ p, p.dist cs < q → P p := by
  unfold gnNear
  rw [eventually_comap, Metric.eventually_nhds_iff]
  constructor
  · rintro ⟨q, hq, h⟩
    refine ⟨q, hq, fun p hp => h ?_ p rfl⟩
    rw [Real.dist_eq, sub_zero, abs_of_nonneg p.dist_nonneg]; exact hp
  · rintro ⟨q, hq, h⟩
    refine ⟨q, hq, fun y hy p hp => h p ?_⟩
    rw [Real.dist_eq, sub_zero] at hy
    exact (le_abs_self _).trans_lt (hp ▸ hy)

theorem gnNear_ball (hr : 0 < r) : ∀ᶠ p : GNPt L N cfg S DF DL DV x0 in gnNear cs, p.dist cs ≤ r :=
  gnNear_iff.2 ⟨r, hr, fun _ h => h.le⟩

theorem dist_tendsto : Tendsto (GNPt.dist cs) (gnNear cs : Filter (GNPt L N cfg S DF DL DV x0)) (𝓝 0) := tendsto_comap

/-- A quantity of order `o(1)`. -/
theorem bigO_one_of_dist {f : GNPt L N cfg S DF DL DV x0 → ℝ} (h : f =O[gnNear cs] GNPt.dist cs) : f =O[gnNear cs] fun _ => (1 : ℝ) :=
  h.trans (dist_tendsto.isBigO_one ℝ)

theorem ballStage {c : Ctrl n m ℝ} (h : √(devSq N (devOf cs c)) ≤ r) {j : ℕ} (hj : j < N) :
    sq2 (c.x j - cs.x j) (c.u j - cs.u j) ≤ r ^ 2 :=
  (devSq_stage (N := N) (devOf cs c) hj).trans ((Real.sqrt_le_left ((Real.sqrt_nonneg _).trans h)).1 h)

theorem ballTerm {c : Ctrl n m ℝ} (h : √(devSq N (devOf cs c)) ≤ r) : (c.x N - cs.x N) ⬝ᵥ (c.x N - cs.x N) ≤ r ^ 2 :=
  (devSq_term (N := N) (devOf cs c)).trans ((Real.sqrt_le_left ((Real.sqrt_nonneg _).trans h)).1 h)

theorem ballTerm' {c : Ctrl n m ℝ} (h : √(devSq N (devOf cs c)) ≤ r) : sq2 (c.x N - cs.x N) ((0 : Vec 0 ℝ) - 0) ≤ r ^ 2 := by
  rw [sq2_zero_right]; exact ballTerm h

theorem ballSelf (hr : 0 < r) : √(devSq N (devOf cs cs)) ≤ r := by
  have : devSq N (devOf cs cs) = 0 := by simp [devSq, devOf]
  rw [this, Real.sqrt_zero]; exact hr.le

theorem sqrt_stage (e : Dev n m) {j : ℕ} (hj : j < N) : √(sq2 (e.x j) (e.u j)) ≤ √(devSq N e) := Real.sqrt_le_sqrt (devSq_stage e hj)

/-- Taylor's formula for a function tested with a vector. -/
theorem test_taylor {a b c : ℕ} {f : Vec a ℝ → Vec b ℝ → Vec c ℝ} {D : Vec a ℝ → Vec b ℝ → Mat c a ℝ × Mat c b ℝ} {xs : Vec a ℝ} {us : Vec b ℝ}
    {r C : ℝ} {z : Vec c ℝ}
    (hj : ∀ x u, sq2 (x - xs) (u - us) ≤ r ^ 2 → IsJac2 f x u (D x u).1 (D x u).2)
    (hl : ∀ x u x' u', sq2 (x - xs) (u - us) ≤ r ^ 2 → sq2 (x' - xs) (u' - us) ≤ r ^ 2 → ∀ wx wu,
      |z ⬝ᵥ (((D x' u').1 *ᵥ wx + (D x' u').2 *ᵥ wu) - ((D x u).1 *ᵥ wx + (D x u).2 *ᵥ wu))| ≤
        C * √(sq2 (x' - x) (u' - u)) * √(sq2 wx wu))
    {x x' : Vec a ℝ} {u u' : Vec b ℝ} (h0 : sq2 (x - xs) (u - us) ≤ r ^ 2) (h1 : sq2 (x' - xs) (u' - us) ≤ r ^ 2) :
    |z ⬝ᵥ (f x' u' - f x u - ((D x u).1 *ᵥ (x' - x) + (D x u).2 *ᵥ (u' - u)))| ≤ C / 2 * sq2 (x' - x) (u' - u) := by
  have hseg : ∀ s ∈ Set.Icc (0 : ℝ) 1, sq2 (x + s • (x' - x) - xs) (u + s • (u' - u) - us) ≤ r ^ 2 := by
    intro s hs
    have e1 : x + s • (x' - x) - xs = (x - xs) + s • (x' - x) := by abel
    have e2 : u + s • (u' - u) - us = (u - us) + s • (u' - u) := by abel
    rw [e1, e2]
    refine sq2_seg h0 ?_ hs
    rwa [sub_add_sub_cancel', sub_add_sub_cancel']
  have := taylor_one (C := C * sq2 (x' - x) (u' - u)) (fun s hs => (hj _ _ (hseg s hs)).line z) (fun s hs => by
    have h2 := hl _ _ _ _ h0 (hseg s hs) (x' - x) (u' - u)
    simp only [zero_smul, add_zero, ← sub_dotProduct]
    rw [dotProduct_comm]
    refine h2.trans (le_of_eq ?_)
    rw [add_sub_cancel_left, add_sub_cancel_left, sq2_smul, Real.sqrt_mul (sq_nonneg _), Real.sqrt_sq hs.1]
    have : √(sq2 (x' - x) (u' - u)) * √(sq2 (x' - x) (u' - u)) = sq2 (x' - x) (u' - u) := Real.mul_self_sqrt (sq2_nonneg _ _)
    calc _ = C * (√(sq2 (x' - x) (u' - u)) * √(sq2 (x' - x) (u' - u))) * s := by ring
      _ = _ := by rw [this]) (Set.right_mem_Icc.2 zero_le_one)
  simp only [one_smul, zero_smul, add_zero, add_sub_cancel, one_pow, one_mul, mul_one, ← sub_dotProduct] at this
  rw [dotProduct_comm]
  refine this.trans (le_of_eq ?_)
  ring

section Bounds
variable (hR : GNRegion N S DF DL DV cs.x cs.u lam r ρ μ θ M) (hr : 0 < r)
include hR hr

theorem GNRegion.taylor_dyn {j : ℕ} (hj : j < N) (z : Vec n ℝ) {x x' : Vec n ℝ} {u u' : Vec (m j) ℝ}
    (h0 : sq2 (x - cs.x j) (u - cs.u j) ≤ r ^ 2) (h1 : sq2 (x' - cs.x j) (u' - cs.u j) ≤ r ^ 2) :
    |z ⬝ᵥ (S.f j x' u' - S.f j x u - (DF j x u).app (x' - x) (u' - u))| ≤ M * √(z ⬝ᵥ z) / 2 * sq2 (x' - x) (u' - u) :=
  test_taylor (D := fun x u => ((DF j x u).Fx, (DF j x u).Fu)) (hR.jac j hj)
    (fun x u x' u' h h' wx wu => hR.lip j hj x u x' u' h h' z wx wu) h0 h1

theorem GNRegion.taylor_weight {j : ℕ} (hj : j < N) {x x' : Vec n ℝ} {u u' : Vec (m j) ℝ}
    (h0 : sq2 (x - cs.x j) (u - cs.u j) ≤ r ^ 2) (h1 : sq2 (x' - cs.x j) (u' - cs.u j) ≤ r ^ 2) :
    |lam (j + 1) ⬝ᵥ (S.f j x' u' - S.f j x u - (DF j x u).app (x' - x) (u' - u))| ≤ θ / 2 * sq2 (x' - x) (u' - u) :=
  test_taylor (D := fun x u => ((DF j x u).Fx, (DF j x u).Fu)) (hR.jac j hj)
    (fun x u x' u' h h' wx wu => hR.weight j hj x u x' u' h h' wx wu) h0 h1

local notation "Near" => (gnNear cs : Filter (GNPt L N cfg S DF DL DV x0))

/-- The Jacobians of the dynamics tend to those along the solution. -/
theorem GNRegion.F_diff {j : ℕ} (hj : j < N) :
    MO Near (fun p => (p.d.F j).Fx - (DF j (cs.x j) (cs.u j)).Fx) (GNPt.dist cs) ∧
    MO Near (fun p => (p.d.F j).Fu - (DF j (cs.x j) (cs.u j)).Fu) (GNPt.dist cs) := by
  have key : ∀ z wx wu, (fun p : GNPt L N cfg S DF DL DV x0 =>
      z ⬝ᵥ ((p.d.F j).app wx wu - (DF j (cs.x j) (cs.u j)).app wx wu)) =O[Near] GNPt.dist cs := by
    intro z wx wu
    refine IsBigO.of_bound (|M| * √(z ⬝ᵥ z) * √(sq2 wx wu)) ((gnNear_ball hr).mono fun p hp => ?_)
    rw [Real.norm_eq_abs, Real.norm_of_nonneg p.dist_nonneg, p.dF j hj]
    refine (hR.lip j hj _ _ _ _ (ballStage (ballSelf hr) hj) (ballStage hp hj) z wx wu).trans ?_
    have h1 := sqrt_stage (N := N) (devOf cs p.c) hj
    have h2 : (0 : ℝ) ≤ √(z ⬝ᵥ z) * √(sq2 wx wu) := by positivity
    have h3 : M * (√(sq2 (p.c.x j - cs.x j) (p.c.u j - cs.u j)) * (√(z ⬝ᵥ z) * √(sq2 wx wu))) ≤
        |M| * (√(devSq N (devOf cs p.c)) * (√(z ⬝ᵥ z) * √(sq2 wx wu))) :=
      mul_le_mul (le_abs_self M) (mul_le_mul_of_nonneg_right h1 h2) (by positivity) (abs_nonneg M)
    calc _ = M * (√(sq2 (p.c.x j - cs.x j) (p.c.u j - cs.u j)) * (√(z ⬝ᵥ z) * √(sq2 wx wu))) := by ring
      _ ≤ _ := h3
      _ = _ := by rw [GNPt.dist]; ring
  constructor
  · intro i q
    have := key (Pi.single i 1) (Pi.single q 1) 0
    refine this.congr_left fun p => ?_
    simp [FDeriv.app]
  · intro i q
    have := key (Pi.single i 1) 0 (Pi.single q 1)
    refine this.congr_left fun p => ?_
    simp [FDeriv.app]

theorem GNRegion.F_bounded {j : ℕ} (hj : j < N) :
    MO Near (fun p => (p.d.F j).Fx) (fun _ => 1) ∧ MO Near (fun p => (p.d.F j).Fu) (fun _ => 1) := by
  obtain ⟨h1, h2⟩ := hR.F_diff (L := L) (cfg := cfg) (x0 := x0) hr hj
  constructor
  · have := (h1.trans (bigO_one_of_dist (isBigO_refl _ _))).add (MO.const (DF j (cs.x j) (cs.u j)).Fx)
    simpa only [sub_add_cancel] using this
  · have := (h2.trans (bigO_one_of_dist (isBigO_refl _ _))).add (MO.const (DF j (cs.x j) (cs.u j)).Fu)
    simpa only [sub_add_cancel] using this

/-- The second derivatives of the running cost are bounded. -/
theorem GNRegion.L_bounded {j : ℕ} (hj : j < N) :
    MO Near (fun p => (p.d.L j).Lxx) (fun _ => 1) ∧ MO Near (fun p => (p.d.L j).Lxu) (fun _ => 1) ∧
      MO Near (fun p => (p.d.L j).Luu) (fun _ => 1) := by
  have key : ∀ ax au bx bu, (fun p : GNPt L N cfg S DF DL DV x0 => (p.d.L j).bil ax au bx bu) =O[Near] fun _ => (1 : ℝ) := by
    intro ax au bx bu
    have h1 : (fun p : GNPt L N cfg S DF DL DV x0 => (p.d.L j).bil ax au bx bu - (DL j (cs.x j) (cs.u j)).bil ax au bx bu) =O[Near]
        fun _ => (1 : ℝ) := by
      refine IsBigO.of_bound (|M| * r * √(sq2 ax au) * √(sq2 bx bu)) ((gnNear_ball hr).mono fun p hp => ?_)
      rw [norm_one, mul_one, Real.norm_eq_abs, p.dL j hj]
      refine ((hR.run j hj).lip _ _ _ _ (ballStage (ballSelf hr) hj) (ballStage hp hj) ax au bx bu).trans ?_
      have h1 := (sqrt_stage (N := N) (devOf cs p.c) hj).trans hp
      refine mul_le_mul_of_nonneg_right (mul_le_mul_of_nonneg_right (mul_le_mul (le_abs_self M) h1 (by positivity) (abs_nonneg M))
        (by positivity)) (by positivity)
    have := h1.add (isBigO_const_const ((DL j (cs.x j) (cs.u j)).bil ax au bx bu) one_ne_zero Near)
    simpa only [sub_add_cancel] using this
  refine ⟨fun i q => ?_, fun i q => ?_, fun i q => ?_⟩
  · refine (key (Pi.single i 1) 0 (Pi.single q 1) 0).congr_left fun p => ?_
    simp [LDeriv.bil]
  · refine (key (Pi.single i 1) 0 0 (Pi.single q 1)).congr_left fun p => ?_
    simp [LDeriv.bil]
  · refine (key 0 (Pi.single i 1) 0 (Pi.single q 1)).congr_left fun p => ?_
    simp [LDeriv.bil]

theorem GNRegion.V_bounded : MO Near (fun p => p.d.V.Vxx) (fun _ => 1) := by
  intro i q
  have h1 : (fun p : GNPt L N cfg S DF DL DV x0 => (p.d.V.Vxx - (DV (cs.x N)).Vxx) i q) =O[Near] fun _ => (1 : ℝ) := by
    refine IsBigO.of_bound (|M| * r * √(sq2 (Pi.single i 1) (0 : Vec 0 ℝ)) * √(sq2 (Pi.single q 1) (0 : Vec 0 ℝ)))
      ((gnNear_ball hr).mono fun p hp => ?_)
    rw [norm_one, mul_one, Real.norm_eq_abs, p.dV]
    have h2 := hR.term.lip _ _ _ _ (ballTerm' (ballSelf hr)) (ballTerm' hp) (Pi.single i 1) 0 (Pi.single q 1) 0
    have h3 : √(sq2 (p.c.x N - cs.x N) ((0 : Vec 0 ℝ) - 0)) ≤ r := by
      rw [sq2_zero_right]; exact (dev_x_le (N := N) (devOf cs p.c) le_rfl).trans hp
    have h4 : (DV (p.c.x N)).toL.bil (Pi.single i 1) 0 (Pi.single q 1) 0 - (DV (cs.x N)).toL.bil (Pi.single i 1) 0 (Pi.single q 1) 0 =
        ((DV (p.c.x N)).Vxx - (DV (cs.x N)).Vxx) i q := by simp [LDeriv.bil, VDeriv.toL]
    rw [← h4]
    refine h2.trans ?_
    exact mul_le_mul_of_nonneg_right (mul_le_mul_of_nonneg_right (mul_le_mul (le_abs_self M) h3 (by positivity) (abs_nonneg M))
        (by positivity)) (by positivity)
  have := h1.add (isBigO_const_const ((DV (cs.x N)).Vxx i q) one_ne_zero Near)
  refine this.congr_left fun p => ?_
  simp

/-- The model along a trajectory near the solution is convex. -/
theorem GNRegion.convexModel (hμ : 0 < μ) (p : GNPt L N cfg S DF DL DV x0) (hp : p.dist cs ≤ r) : ConvexModel N p.d where
  stage i hi dx du := by rw [p.dL i hi]; exact hR.convex i hi _ _ (ballStage hp hi) dx du
  input i hi := by
    rw [p.dL i hi]
    refine posDef_iff.2 ⟨((hR.run i hi).symm _ _ (ballStage hp hi)).2, fun v hv => ?_⟩
    refine lt_of_lt_of_le (mul_pos hμ ?_) (hR.input i hi _ _ (ballStage hp hi) v)
    exact lt_of_le_of_ne (dot_self_nonneg' v) fun h => hv (dotProduct_self_eq_zero.1 h.symm)
  term := by rw [p.dV]; exact hR.termConvex _ (ballTerm hp)

theorem GNRegion.symm (p : GNPt L N cfg S DF DL DV x0) (hp : p.dist cs ≤ r) :
    (∀ i < N, (p.d.L i).Lxx.IsSymm) ∧ (∀ i < N, (p.d.L i).Luu.IsSymm) ∧ p.d.V.Vxx.IsSymm := by
  refine ⟨fun i hi => ?_, fun i hi => ?_, ?_⟩
  · rw [p.dL i hi]; exact ((hR.run i hi).symm _ _ (ballStage hp hi)).1
  · rw [p.dL i hi]; exact ((hR.run i hi).symm _ _ (ballStage hp hi)).2
  · rw [p.dV]; exact (hR.term.symm _ _ (ballTerm' hp)).1

/-- The value functions are convex. -/
theorem GNRegion.value_psd (hμ : 0 < μ) (p : GNPt L N cfg S DF DL DV x0) (hp : p.dist cs ≤ r) {j : ℕ} (hj : j ≤ N) :
    (p.V j).Vxx.PosSemidef := by
  have hc := hR.convexModel hr hμ p hp
  have hVs : (p.V N).Vxx.IsSymm := by rw [p.VN]; exact (posSemidef_iff.1 hc.term).1
  refine Nat.decreasingInduction' (P := fun j => (p.V j).Vxx.PosSemidef) (n := N) (fun i hi _ ih => ?_) hj (by rw [p.VN]; exact hc.term)
  rw [p.chain.value i hi]
  refine posSemidef_iff.2 ⟨updateV_symm _ _ _, fun v => ?_⟩
  rw [updateV_quad, Qat, calcQ_quad _ _ _ (posSemidef_iff.1 ih).1]
  exact add_nonneg (hc.stage i hi _ _) ((posSemidef_iff.1 ih).2 _)

/-- The value functions and the feedback gains are bounded. -/
theorem GNRegion.gain_bounded (hL : L.Exact) (hw : cfg.withConstraint = false) (hμ : 0 < μ) :
    (∀ j ≤ N, MO Near (fun p => (p.V j).Vxx) fun _ => 1) ∧ ∀ j < N, MO Near (fun p => p.g.K j) fun _ => 1 := by
  have hstep : ∀ j < N, MO Near (fun p => (p.V (j + 1)).Vxx) (fun _ => 1) →
      MO Near (fun p => p.g.K j) (fun _ => 1) ∧ MO Near (fun p => (p.V j).Vxx) fun _ => 1 := by
    intro j hj hV
    obtain ⟨hFx, hFu⟩ := hR.F_bounded (L := L) (cfg := cfg) (x0 := x0) hr hj
    obtain ⟨hLxx, hLxu, hLuu⟩ := hR.L_bounded (L := L) (cfg := cfg) (x0 := x0) hr hj
    have hQux : MO Near (fun p => (Qat cfg 0 p.d p.V j).Qux) fun _ => 1 := hLxu.transpose.add ((hFu.transpose.mul hV).mul hFx)
    have hQuu : MO Near (fun p => (Qat cfg 0 p.d p.V j).Quu) fun _ => 1 := hLuu.add ((hFu.transpose.mul hV).mul hFu)
    have hQxx : MO Near (fun p => (Qat cfg 0 p.d p.V j).Qxx) fun _ => 1 := hLxx.add ((hFx.transpose.mul hV).mul hFx)
    have hK : MO Near (fun p => p.g.K j) fun _ => 1 := by
      intro i q
      have hv : VO Near (fun p => (Qat cfg 0 p.d p.V j).Qux *ᵥ Pi.single q 1) fun _ => 1 := hQux.mulVec1 (VO.const _)
      have hs : (fun p : GNPt L N cfg S DF DL DV x0 => √(((Qat cfg 0 p.d p.V j).Qux *ᵥ Pi.single q 1) ⬝ᵥ
          ((Qat cfg 0 p.d p.V j).Qux *ᵥ Pi.single q 1))) =O[Near] fun _ => (1 : ℝ) := sqrt_bigO (by simpa using hv.dot hv)
      have hKv : VO Near (fun p => p.g.K j *ᵥ Pi.single q 1) fun _ => 1 := by
        refine .of_sqrt (IsBigO.trans (IsBigO.of_bound (1 / μ) ((gnNear_ball hr).mono fun p hp => ?_)) hs)
        rw [Real.norm_of_nonneg (Real.sqrt_nonneg _), Real.norm_of_nonneg (Real.sqrt_nonneg _)]
        set v := p.g.K j *ᵥ Pi.single q 1 with hv'
        set w := (Qat cfg 0 p.d p.V j).Qux *ᵥ Pi.single q 1 with hw'
        have hsy := hR.symm hr p hp
        have hn := (p.chain.newton hL hw (by rw [p.VN]; exact hsy.2.2) hsy.2.1 hj).2.2 (Pi.single q 1)
        rw [← hv', ← hw'] at hn
        have h1 : μ * (v ⬝ᵥ v) ≤ v ⬝ᵥ (Qat cfg 0 p.d p.V j).Quu *ᵥ v := by
          have h2 := calcQ_quad (cfg := cfg) (lambda := 0) (p.d.F j) (p.d.L j) (p.V (j + 1))
            (posSemidef_iff.1 (hR.value_psd hr hμ p hp hj)).1 0 v
          simp only [mulVec_zero, zero_dotProduct, dotProduct_zero, zero_add, mul_zero, add_zero] at h2
          have h3 := (posSemidef_iff.1 (hR.value_psd hr hμ p hp hj)).2 ((p.d.F j).Fu *ᵥ v)
          have h4 := hR.input j hj _ _ (ballStage hp hj) v
          rw [← p.dL j hj] at h4
          rw [Qat, h2]
          linarith
        rw [hn, dotProduct_neg] at h1
        have h5 := (neg_le_of_abs_le (dot_le_sqrt v w))
        have h6 : √(v ⬝ᵥ v) * √(v ⬝ᵥ v) = v ⬝ᵥ v := Real.mul_self_sqrt (dot_self_nonneg' v)
        rw [one_div, inv_mul_eq_div, le_div_iff₀ hμ]
        rcases (Real.sqrt_nonneg (v ⬝ᵥ v)).eq_or_lt with h0 | h0
        · rw [← h0, zero_mul]; exact Real.sqrt_nonneg _
        · refine le_of_mul_le_mul_left ?_ h0
          nlinarith
      refine (hKv i).congr_left fun p => ?_
      simp
    refine ⟨hK, ?_⟩
    have h1 : MO Near (fun p => (Qat cfg 0 p.d p.V j).Qxx + (p.g.K j)ᵀ * (Qat cfg 0 p.d p.V j).Quu * p.g.K j +
        (p.g.K j)ᵀ * (Qat cfg 0 p.d p.V j).Qux + (Qat cfg 0 p.d p.V j).Quxᵀ * p.g.K j) fun _ => 1 :=
      ((hQxx.add ((hK.transpose.mul hQuu).mul hK)).add (hK.transpose.mul hQux)).add (hQux.transpose.mul hK)
    have h2 := (h1.add h1.transpose).smul (1 / 2)
    refine fun i q => (h2 i q).congr_left fun p => ?_
    show _ = (p.V j).Vxx i q
    rw [p.chain.value j hj]
    simp [updateV]
    ring
  have hV : ∀ j ≤ N, MO Near (fun p => (p.V j).Vxx) fun _ => 1 := by
    intro j hj
    refine Nat.decreasingInduction' (P := fun j => MO Near (fun p => (p.V j).Vxx) fun _ => 1) (n := N) (fun i hi _ ih => (hstep i hi ih).2) hj ?_
    have := hR.V_bounded (L := L) (cfg := cfg) (x0 := x0) hr
    refine fun i q => (this i q).congr_left fun p => ?_
    show p.d.V.Vxx i q = (p.V N).Vxx i q
    rw [p.VN]
  exact ⟨hV, fun j hj => (hstep j hj (hV (j + 1) hj)).1⟩

end Bounds

end Nmpc.DDP
