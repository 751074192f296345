import Verif.FMPC.MeritSlope

/-!
# FMPC with line search on linear-quadratic problems (helper lemmas for C144)
-/

set_option linter.unusedSectionVars false

namespace Nmpc.FMPC

open DDP (FDeriv LDeriv VDeriv timeAt)
open Matrix Finset Set Filter Topology

section Lq
variable {n : ℕ} {m p : ℕ → ℕ} {L : GainSolver ℝ} {N : ℕ} {cfg : Config ℝ} {S : Stages n m p ℝ} {x0 : Vec n ℝ} {D : LQData n m}

/-- The costs belong to the derivatives of `IsLQ`. -/
structure IsLQCost (S : Stages n m p ℝ) (D : LQData n m) : Prop extends IsLQ S D where
  l : ∀ i, ∃ e, ∀ x u, S.l i x u = 1 / 2 * (x ⬝ᵥ D.Q i *ᵥ x) + x ⬝ᵥ D.M i *ᵥ u + 1 / 2 * (u ⬝ᵥ D.R i *ᵥ u) + D.q i ⬝ᵥ x + D.r i ⬝ᵥ u + e
  φ : ∃ e, ∀ x, S.φ x = 1 / 2 * (x ⬝ᵥ D.Qf *ᵥ x) + D.qf ⬝ᵥ x + e

/-- The optimality conditions of the linear-quadratic problem. -/
structure LqKkt (D : LQData n m) (N : ℕ) (dt : ℝ) (x0 : Vec n ℝ) (X : ℕ → Vec n ℝ) (U : (i : ℕ) → Vec (m i) ℝ) (Λ : ℕ → Vec n ℝ) : Prop where
  init : X 0 = x0
  dyn : ∀ i < N, X (i + 1) = D.A i *ᵥ X i + D.B i *ᵥ U i + D.a i
  statx : ∀ i < N, dt • (D.Q i *ᵥ X i + D.M i *ᵥ U i + D.q i) - Λ i + (D.A i)ᵀ *ᵥ Λ (i + 1) = 0
  statu : ∀ i < N, dt • ((D.M i)ᵀ *ᵥ X i + D.R i *ᵥ U i + D.r i) + (D.B i)ᵀ *ᵥ Λ (i + 1) = 0
  term : D.Qf *ᵥ X N + D.qf - Λ N = 0

/-- Sum of the absolute residuals of the dynamics, as a function of the distance from the solution. -/
noncomputable def lqViol (D : LQData n m) (N : ℕ) (ex : ℕ → Vec n ℝ) (eu : (i : ℕ) → Vec (m i) ℝ) : ℝ :=
  (∑ j, |ex 0 j|) + ∑ i ∈ range N, ∑ j, |(ex (i + 1) - D.A i *ᵥ ex i - D.B i *ᵥ eu i) j|

/-- Second derivative of the cost along a direction. -/
noncomputable def lqCurv (D : LQData n m) (N : ℕ) (dt : ℝ) (ex : ℕ → Vec n ℝ) (eu : (i : ℕ) → Vec (m i) ℝ) : ℝ :=
  (∑ i ∈ range N, dt * (ex i ⬝ᵥ D.Q i *ᵥ ex i + 2 * (ex i ⬝ᵥ D.M i *ᵥ eu i) + eu i ⬝ᵥ D.R i *ᵥ eu i)) + ex N ⬝ᵥ D.Qf *ᵥ ex N

/-- Residuals of the dynamics weighted by multipliers. -/
noncomputable def lqWeighted (D : LQData n m) (N : ℕ) (Λ ex : ℕ → Vec n ℝ) (eu : (i : ℕ) → Vec (m i) ℝ) : ℝ :=
  Λ 0 ⬝ᵥ ex 0 + ∑ i ∈ range N, Λ (i + 1) ⬝ᵥ (ex (i + 1) - D.A i *ᵥ ex i - D.B i *ᵥ eu i)

theorem lqCurv_nonneg (hD : D.Convex N) {dt : ℝ} (hdt : 0 ≤ dt) (ex : ℕ → Vec n ℝ) (eu : (i : ℕ) → Vec (m i) ℝ) : 0 ≤ lqCurv D N dt ex eu :=
  add_nonneg (sum_nonneg fun i hi => mul_nonneg hdt (hD.joint i (mem_range.1 hi) _ _)) ((posSemidef_iff.1 hD.Qf).2 _)

theorem symm_dot {k : ℕ} {Q : Mat k k ℝ} (hQ : Q.IsSymm) (x y : Vec k ℝ) : y ⬝ᵥ Q *ᵥ x = x ⬝ᵥ Q *ᵥ y := by
  rw [← dot_transpose, hQ.eq, dotProduct_comm]

/-- A stage cost along a line. -/
theorem stage_line {k l : ℕ} {Q : Mat k k ℝ} {M : Mat k l ℝ} {R : Mat l l ℝ} (hQ : Q.IsSymm) (hR : R.IsSymm) (q x dx : Vec k ℝ)
    (r u du : Vec l ℝ) (e t : ℝ) :
    1 / 2 * ((x + t • dx) ⬝ᵥ Q *ᵥ (x + t • dx)) + (x + t • dx) ⬝ᵥ M *ᵥ (u + t • du) + 1 / 2 * ((u + t • du) ⬝ᵥ R *ᵥ (u + t • du))
        + q ⬝ᵥ (x + t • dx) + r ⬝ᵥ (u + t • du) + e =
      (1 / 2 * (x ⬝ᵥ Q *ᵥ x) + x ⬝ᵥ M *ᵥ u + 1 / 2 * (u ⬝ᵥ R *ᵥ u) + q ⬝ᵥ x + r ⬝ᵥ u + e)
        + t * ((Q *ᵥ x + M *ᵥ u + q) ⬝ᵥ dx + (Mᵀ *ᵥ x + R *ᵥ u + r) ⬝ᵥ du)
        + t ^ 2 / 2 * (dx ⬝ᵥ Q *ᵥ dx + 2 * (dx ⬝ᵥ M *ᵥ du) + du ⬝ᵥ R *ᵥ du) := by
  have h1 := symm_dot hQ x dx
  have h2 := symm_dot hR u du
  have h3 := dot_transpose M x du
  have h4 := dotProduct_comm (Q *ᵥ x) dx
  have h5 := dotProduct_comm (M *ᵥ u) dx
  have h6 := dotProduct_comm (R *ᵥ u) du
  simp only [mulVec_add, mulVec_smul, add_dotProduct, dotProduct_add, smul_dotProduct, dotProduct_smul, smul_eq_mul]
  linear_combination -t / 2 * h1 - t / 2 * h2 - t * h3 - t * h4 - t * h5 - t * h6

/-- A terminal cost along a line. -/
theorem term_line {k : ℕ} {Q : Mat k k ℝ} (hQ : Q.IsSymm) (q x dx : Vec k ℝ) (e t : ℝ) :
    1 / 2 * ((x + t • dx) ⬝ᵥ Q *ᵥ (x + t • dx)) + q ⬝ᵥ (x + t • dx) + e =
      (1 / 2 * (x ⬝ᵥ Q *ᵥ x) + q ⬝ᵥ x + e) + t * ((Q *ᵥ x + q) ⬝ᵥ dx) + t ^ 2 / 2 * (dx ⬝ᵥ Q *ᵥ dx) := by
  have h1 := symm_dot hQ x dx
  have h4 := dotProduct_comm (Q *ᵥ x) dx
  simp only [mulVec_add, mulVec_smul, add_dotProduct, dotProduct_add, smul_dotProduct, dotProduct_smul, smul_eq_mul]
  linear_combination -t / 2 * h1 - t * h4

/-- The derivatives of the callbacks are those of the costs. -/
theorem IsLQCost.trueDerivs (h : IsLQCost S D) (hD : D.Convex N) : TrueDerivs N S where
  f i _ x u b dx du := by
    rw [h.df]
    have : (fun t : ℝ => S.f i (x + t • dx) (u + t • du)) = fun t : ℝ => t • (D.A i *ᵥ dx + D.B i *ᵥ du) + S.f i x u := by
      funext t
      rw [h.f, h.f, mulVec_add, mulVec_add, mulVec_smul, mulVec_smul]
      module
    rw [this]
    simpa using ((hasDerivAt_id (0 : ℝ)).smul_const (D.A i *ᵥ dx + D.B i *ᵥ du)).add_const (S.f i x u)
  g i _ x u b dx du := by
    refine hasDerivAt_pi.2 fun j => (fin_elim (h.none i) j).elim
  l i hi x u b dx du := by
    obtain ⟨e, he⟩ := h.l i
    rw [h.dl]
    have : (fun t : ℝ => S.l i (x + t • dx) (u + t • du)) = fun t : ℝ => S.l i x u
        + t * ((D.Q i *ᵥ x + D.M i *ᵥ u + D.q i) ⬝ᵥ dx + ((D.M i)ᵀ *ᵥ x + D.R i *ᵥ u + D.r i) ⬝ᵥ du)
        + t ^ 2 / 2 * (dx ⬝ᵥ D.Q i *ᵥ dx + 2 * (dx ⬝ᵥ D.M i *ᵥ du) + du ⬝ᵥ D.R i *ᵥ du) := by
      funext t
      rw [he, he]
      exact stage_line (hD.Q i hi) (posDef_iff.1 (hD.R i hi)).1 _ _ _ _ _ _ _ _
    rw [this]
    have h1 := ((hasDerivAt_id (0 : ℝ)).mul_const ((D.Q i *ᵥ x + D.M i *ᵥ u + D.q i) ⬝ᵥ dx + ((D.M i)ᵀ *ᵥ x + D.R i *ᵥ u + D.r i) ⬝ᵥ du)).const_add (S.l i x u)
    have h2 := (((hasDerivAt_id (0 : ℝ)).pow 2).div_const 2).mul_const (dx ⬝ᵥ D.Q i *ᵥ dx + 2 * (dx ⬝ᵥ D.M i *ᵥ du) + du ⬝ᵥ D.R i *ᵥ du)
    have h3 := h1.add h2
    simp only [id, one_mul, Nat.cast_ofNat, mul_zero, zero_mul, zero_div, add_zero,
      Nat.add_one_sub_one, pow_one] at h3
    exact h3
  φ x b dx := by
    obtain ⟨e, he⟩ := h.φ
    rw [h.dφ]
    have : (fun t : ℝ => S.φ (x + t • dx)) = fun t : ℝ => S.φ x + t * ((D.Qf *ᵥ x + D.qf) ⬝ᵥ dx) + t ^ 2 / 2 * (dx ⬝ᵥ D.Qf *ᵥ dx) := by
      funext t
      rw [he, he]
      exact term_line (posSemidef_iff.1 hD.Qf).1 _ _ _ _ _
    rw [this]
    have h1 := ((hasDerivAt_id (0 : ℝ)).mul_const ((D.Qf *ᵥ x + D.qf) ⬝ᵥ dx)).const_add (S.φ x)
    have h2 := (((hasDerivAt_id (0 : ℝ)).pow 2).div_const 2).mul_const (dx ⬝ᵥ D.Qf *ᵥ dx)
    have h3 := h1.add h2
    simp only [id, one_mul, Nat.cast_ofNat, mul_zero, zero_mul, zero_div, add_zero,
      Nat.add_one_sub_one, pow_one] at h3
    exact h3

theorem vec_none {k : ℕ} (hk : k = 0) (y : Vec k ℝ) : y = 0 := funext fun j => (fin_elim hk j).elim

/-- A Newton direction leads to a point that satisfies the optimality conditions. -/
theorem newton_lqKkt (h : IsLQ S D) {co : (i : ℕ) → Coeff n (m i) (p i) ℝ} {term : TCoeff n ℝ} {v d : Var n m p ℝ} {eps : ℝ}
    (hd : NewtonSystem N S.dt eps x0 v (fun i => if i < N then calcCoeff S v i (co i) else co i) (calcTerm N S v term) d) :
    LqKkt D N S.dt x0 (fun i => v.x i + d.x i) (fun i => v.u i + d.u i) (fun i => v.lam i + d.lam i) where
  init := by rw [hd.init]; module
  dyn i hi := by
    have := hd.dyn i hi
    simp only [if_pos hi, calcCoeff, h.df, h.f] at this
    rw [mulVec_add, mulVec_add]
    linear_combination (norm := module) -this
  statx i hi := by
    have := hd.statx i hi
    simp only [if_pos hi, calcCoeff, h.df, h.dl, smulv_real, mulVec_real, vec_none (h.none i) (v.nu i), vec_none (h.none i) (d.nu i),
      mulVec_zero] at this
    simp only [mulVec_add]
    linear_combination (norm := module) this
  statu i hi := by
    have := hd.statu i hi
    simp only [if_pos hi, calcCoeff, h.df, h.dl, smulv_real, mulVec_real, vec_none (h.none i) (v.nu i), vec_none (h.none i) (d.nu i),
      mulVec_zero] at this
    simp only [mulVec_add]
    linear_combination (norm := module) this
  term := by
    have := hd.term
    simp only [calcTerm, h.dφ] at this
    simp only [mulVec_add]
    linear_combination (norm := module) this

/-- The optimality conditions have one solution. -/
theorem LqKkt.unique (hD : D.Convex N) {dt : ℝ} (hdt : 0 < dt) {X X' : ℕ → Vec n ℝ} {U U' : (i : ℕ) → Vec (m i) ℝ} {Λ Λ' : ℕ → Vec n ℝ}
    (h : LqKkt D N dt x0 X U Λ) (h' : LqKkt D N dt x0 X' U' Λ') :
    (∀ i ≤ N, X' i = X i) ∧ (∀ i < N, U' i = U i) ∧ ∀ i ≤ N, Λ' i = Λ i := by
  set x : ℕ → Vec n ℝ := fun i => X' i - X i with hx
  set u : (i : ℕ) → Vec (m i) ℝ := fun i => U' i - U i with hu
  set l : ℕ → Vec n ℝ := fun i => Λ' i - Λ i with hl
  have x00 : x 0 = 0 := by simp only [hx, h.init, h'.init, sub_self]
  have dyn : ∀ i < N, x (i + 1) = D.A i *ᵥ x i + D.B i *ᵥ u i := fun i hi => by
    simp only [hx, hu, h.dyn i hi, h'.dyn i hi, mulVec_sub]
    module
  have statx : ∀ i < N, dt • (D.Q i *ᵥ x i + D.M i *ᵥ u i) - l i + (D.A i)ᵀ *ᵥ l (i + 1) = 0 := fun i hi => by
    have h1 := h.statx i hi
    have h2 := h'.statx i hi
    simp only [hx, hu, hl, mulVec_sub]
    linear_combination (norm := module) h2 - h1
  have statu : ∀ i < N, dt • ((D.M i)ᵀ *ᵥ x i + D.R i *ᵥ u i) + (D.B i)ᵀ *ᵥ l (i + 1) = 0 := fun i hi => by
    have h1 := h.statu i hi
    have h2 := h'.statu i hi
    simp only [hx, hu, hl, mulVec_sub]
    linear_combination (norm := module) h2 - h1
  have term : l N = D.Qf *ᵥ x N := by
    have h1 := h.term
    have h2 := h'.term
    simp only [hx, hl, mulVec_sub]
    linear_combination (norm := module) h1 - h2
  have quad : ∀ i < N, dt * (x i ⬝ᵥ D.Q i *ᵥ x i + 2 * (x i ⬝ᵥ D.M i *ᵥ u i) + u i ⬝ᵥ D.R i *ᵥ u i) = l i ⬝ᵥ x i - l (i + 1) ⬝ᵥ x (i + 1) := by
    intro i hi
    have h1 := congrArg (· ⬝ᵥ x i) (statx i hi)
    have h2 := congrArg (· ⬝ᵥ u i) (statu i hi)
    simp only [add_dotProduct, sub_dotProduct, smul_dotProduct, smul_eq_mul, zero_dotProduct, dot_transpose] at h1 h2
    rw [dyn i hi, dotProduct_add]
    rw [dotProduct_comm (D.Q i *ᵥ x i), dotProduct_comm (D.M i *ᵥ u i)] at h1
    rw [dotProduct_comm (D.R i *ᵥ u i)] at h2
    linear_combination h1 + h2
  have hsum := Finset.sum_congr (rfl : range N = range N) fun i hi => quad i (mem_range.1 hi)
  have tele : ∑ i ∈ range N, (l i ⬝ᵥ x i - l (i + 1) ⬝ᵥ x (i + 1)) = l 0 ⬝ᵥ x 0 - l N ⬝ᵥ x N := Finset.sum_range_sub' _ _
  rw [tele, x00, dotProduct_zero, term, dotProduct_comm, zero_sub] at hsum
  have hq : ∀ i ∈ range N, 0 ≤ dt * (x i ⬝ᵥ D.Q i *ᵥ x i + 2 * (x i ⬝ᵥ D.M i *ᵥ u i) + u i ⬝ᵥ D.R i *ᵥ u i) := fun i hi =>
    mul_nonneg hdt.le (hD.joint i (mem_range.1 hi) _ _)
  have hf : 0 ≤ x N ⬝ᵥ D.Qf *ᵥ x N := (posSemidef_iff.1 hD.Qf).2 _
  have hzero := (Finset.sum_eq_zero_iff_of_nonneg hq).1 (le_antisymm (by linarith) (sum_nonneg hq))
  have step : ∀ i < N, x i = 0 → u i = 0 := fun i hi h0 => by
    have h1 := hzero i (mem_range.2 hi)
    rw [h0] at h1
    simp only [mulVec_zero, zero_dotProduct, mul_zero, zero_add] at h1
    rcases mul_eq_zero.1 h1 with h1 | h1
    · exact absurd h1 hdt.ne'
    · by_contra hne
      exact absurd h1 ((posDef_iff.1 (hD.R i hi)).2 _ hne).ne'
  have hx0 : ∀ i ≤ N, x i = 0 := by
    intro i
    induction i with
    | zero => intro _; exact x00
    | succ i ih =>
      intro hi
      have h1 := ih (by omega)
      rw [dyn i hi, h1, step i hi h1, mulVec_zero, mulVec_zero, add_zero]
  have hu0 : ∀ i < N, u i = 0 := fun i hi => step i hi (hx0 i hi.le)
  have hl0 : ∀ k ≤ N, l (N - k) = 0 := by
    intro k
    induction k with
    | zero => intro _; rw [Nat.sub_zero, term, hx0 N le_rfl, mulVec_zero]
    | succ k ih =>
      intro hk
      have h1 := statx (N - (k + 1)) (by omega)
      rw [show N - (k + 1) + 1 = N - k by omega, ih (by omega), hx0 _ (by omega), hu0 _ (by omega), mulVec_zero, mulVec_zero, mulVec_zero] at h1
      simpa using h1
  refine ⟨fun i hi => sub_eq_zero.1 (hx0 i hi), fun i hi => sub_eq_zero.1 (hu0 i hi), fun i hi => sub_eq_zero.1 ?_⟩
  have := hl0 (N - i) (by omega)
  rwa [show N - (N - i) = i by omega] at this

theorem LqKkt.congr {dt : ℝ} {X X' : ℕ → Vec n ℝ} {U U' : (i : ℕ) → Vec (m i) ℝ} {Λ Λ' : ℕ → Vec n ℝ} (h : LqKkt D N dt x0 X U Λ)
    (hX : ∀ i ≤ N, X' i = X i) (hU : ∀ i < N, U' i = U i) (hΛ : ∀ i ≤ N, Λ' i = Λ i) : LqKkt D N dt x0 X' U' Λ' where
  init := by rw [hX 0 (Nat.zero_le _)]; exact h.init
  dyn i hi := by rw [hX i hi.le, hX (i + 1) hi, hU i hi]; exact h.dyn i hi
  statx i hi := by rw [hX i hi.le, hΛ i hi.le, hΛ (i + 1) hi, hU i hi]; exact h.statx i hi
  statu i hi := by rw [hX i hi.le, hΛ (i + 1) hi, hU i hi]; exact h.statu i hi
  term := by rw [hX N le_rfl, hΛ N le_rfl]; exact h.term

/-- The KKT error of the solver is zero at the solution. -/
theorem LqKkt.kktOf (h : IsLQ S D) {w : Solver n m p ℝ} (hk : LqKkt D N S.dt x0 w.var.x w.var.u w.var.lam) (e : ℝ) :
    kktOf N x0 (prepared N S w e) = 0 := by
  unfold FMPC.kktOf calcKktError
  have key : ∀ k ≤ N, forUp k (fun i e' => e' + sqNorm ((prepared N S w e).coeff i).xbar
      + sqNorm ((prepared N S w e).coeff i).gbar + sqNorm ((prepared N S w e).coeff i).Lxbar
      + sqNorm ((prepared N S w e).coeff i).Lubar
      + sqNorm (complError 0 ((prepared N S w e).var.s i) ((prepared N S w e).var.nu i)))
      (0 + sqNorm (x0 - (prepared N S w e).var.x 0)) = 0 := by
    intro k hkN
    induction k with
    | zero =>
      rw [forUp]
      have : x0 - (prepared N S w e).var.x 0 = 0 := by
        show x0 - w.var.x 0 = 0
        rw [hk.init, sub_self]
      rw [this]; simp
    | succ k ih =>
      rw [forUp, ih (by omega)]
      have hkN : k < N := by omega
      have hc : (prepared N S w e).coeff k = calcCoeff S w.var k (w.coeff k) := if_pos hkN
      have e1 : (calcCoeff S w.var k (w.coeff k)).xbar = 0 := by
        show S.f k (w.var.x k) (w.var.u k) - w.var.x (k + 1) = 0
        rw [h.f, hk.dyn k hkN, sub_self]
      have e2 : (calcCoeff S w.var k (w.coeff k)).Lxbar = 0 := by
        simp only [calcCoeff, h.df, h.dl, smulv_real, mulVec_real, vec_none (h.none k) (w.var.nu k), mulVec_zero]
        linear_combination (norm := module) hk.statx k hkN
      have e3 : (calcCoeff S w.var k (w.coeff k)).Lubar = 0 := by
        simp only [calcCoeff, h.df, h.dl, smulv_real, mulVec_real, vec_none (h.none k) (w.var.nu k), mulVec_zero]
        linear_combination (norm := module) hk.statu k hkN
      rw [hc, e1, e2, e3, vec_none (h.none k) (calcCoeff S w.var k (w.coeff k)).gbar, vec_none (h.none k) (complError _ _ _)]
      simp
  rw [key N (le_refl _)]
  have e4 : (prepared N S w e).term.Lxbar = 0 := by
    show (calcTerm N S w.var w.term).Lxbar = 0
    simp only [calcTerm, h.dφ]
    exact hk.term
  rw [e4]
  simp

/-- The plan lies on the line through the solution `(X, U)` with direction `(ex, eu)`, at the parameter `θ`. -/
structure OnLine (N : ℕ) (X : ℕ → Vec n ℝ) (U : (i : ℕ) → Vec (m i) ℝ) (ex : ℕ → Vec n ℝ) (eu : (i : ℕ) → Vec (m i) ℝ) (θ : ℝ)
    (v : Var n m p ℝ) : Prop where
  x : ∀ i ≤ N, v.x i = X i - θ • ex i
  u : ∀ i < N, v.u i = U i - θ • eu i

section Line
variable {X : ℕ → Vec n ℝ} {U : (i : ℕ) → Vec (m i) ℝ} {Λ ex : ℕ → Vec n ℝ} {eu : (i : ℕ) → Vec (m i) ℝ} {θ : ℝ}

theorem OnLine.initRes {v : Var n m p ℝ} (hZ : LqKkt D N S.dt x0 X U Λ) (hv : OnLine N X U ex eu θ v) : initRes x0 v = θ • ex 0 := by
  unfold FMPC.initRes
  rw [hv.x 0 (Nat.zero_le _), hZ.init]
  module

theorem OnLine.dynRes {v : Var n m p ℝ} (h : IsLQ S D) (hZ : LqKkt D N S.dt x0 X U Λ) (hv : OnLine N X U ex eu θ v) {i : ℕ} (hi : i < N) :
    dynRes S v i = θ • (ex (i + 1) - D.A i *ᵥ ex i - D.B i *ᵥ eu i) := by
  unfold FMPC.dynRes
  rw [h.f, hv.x i hi.le, hv.x (i + 1) hi, hv.u i hi, hZ.dyn i hi, mulVec_sub, mulVec_sub, mulVec_smul, mulVec_smul]
  module

theorem OnLine.violation {v : Var n m p ℝ} (h : IsLQ S D) (hZ : LqKkt D N S.dt x0 X U Λ) (hv : OnLine N X U ex eu θ v) (hθ : 0 ≤ θ) :
    violation N S x0 v = θ * lqViol D N ex eu := by
  unfold FMPC.violation lqViol
  rw [hv.initRes hZ, mul_add, mul_sum, mul_sum]
  congr 1
  · refine sum_congr rfl fun j _ => ?_
    rw [Pi.smul_apply, smul_eq_mul, abs_mul, abs_of_nonneg hθ]
  · refine sum_congr rfl fun i hi => ?_
    rw [hv.dynRes h hZ (mem_range.1 hi), mul_sum]
    have : ∑ j, |ineqRes S v i j| = 0 := sum_eq_zero fun j _ => (fin_elim (h.none i) j).elim
    rw [this, add_zero]
    refine sum_congr rfl fun j _ => ?_
    rw [Pi.smul_apply, smul_eq_mul, abs_mul, abs_of_nonneg hθ]

/-- The merit function of a linear-quadratic problem along a Newton direction. -/
theorem merit_line (h : IsLQCost S D) (hD : D.Convex N) {w : Solver n m p ℝ} (hp : PrimalStep N S x0 w)
    (hc : ∀ i < N, (w.coeff i).F = ⟨D.A i, D.B i⟩ ∧ (w.coeff i).L = ⟨D.Q i *ᵥ w.var.x i + D.M i *ᵥ w.var.u i + D.q i,
      (D.M i)ᵀ *ᵥ w.var.x i + D.R i *ᵥ w.var.u i + D.r i, D.Q i, D.R i, D.M i⟩)
    (ht : w.term.V = ⟨D.Qf *ᵥ w.var.x N + D.qf, D.Qf⟩) {eps scale t : ℝ} (h1 : t ≤ 1) :
    barrierMerit N S eps x0 scale (lsVar w.var w.delta t) = barrierMerit N S eps x0 scale w.var + t * meritDerivObj N S w
      + t ^ 2 / 2 * lqCurv D N S.dt w.delta.x w.delta.u - t * scale * FMPC.violation N S x0 w.var := by
  have hlog : ∀ (v : Var n m p ℝ) i, ∑ j, Real.log (v.s i j) = 0 := fun v i => sum_eq_zero fun j _ => (fin_elim (h.none i) j).elim
  have hviol : FMPC.violation N S x0 (lsVar w.var w.delta t) = (1 - t) * FMPC.violation N S x0 w.var := by
    unfold FMPC.violation
    rw [mul_add, mul_sum, mul_sum]
    congr 1
    · refine sum_congr rfl fun j _ => ?_
      have : FMPC.initRes x0 (lsVar w.var w.delta t) = (1 - t) • FMPC.initRes x0 w.var := by
        have := hp.init
        unfold FMPC.initRes at this ⊢
        simp only [lsVar, smulv_real]
        rw [this]
        module
      rw [this, Pi.smul_apply, smul_eq_mul, abs_mul, abs_of_nonneg (by linarith)]
    · refine sum_congr rfl fun i hi => ?_
      have hi := mem_range.1 hi
      have e0 : ∀ v : Var n m p ℝ, ∑ j, |ineqRes S v i j| = 0 := fun v => sum_eq_zero fun j _ => (fin_elim (h.none i) j).elim
      rw [e0, e0, add_zero, add_zero, mul_sum]
      have : FMPC.dynRes S (lsVar w.var w.delta t) i = (1 - t) • FMPC.dynRes S w.var i := by
        have := hp.dyn i hi
        rw [(hc i hi).1] at this
        unfold FMPC.dynRes at this ⊢
        rw [h.f] at this ⊢
        simp only [lsVar, smulv_real, mulVec_add, mulVec_smul]
        rw [h.f]
        linear_combination (norm := module) t • this
      refine sum_congr rfl fun j _ => ?_
      rw [this, Pi.smul_apply, smul_eq_mul, abs_mul, abs_of_nonneg (by linarith)]
  have hobj : (∑ i ∈ range N, S.dt * S.l i ((lsVar w.var w.delta t).x i) ((lsVar w.var w.delta t).u i)) + S.φ ((lsVar w.var w.delta t).x N) =
      (∑ i ∈ range N, S.dt * S.l i (w.var.x i) (w.var.u i)) + S.φ (w.var.x N) + t * meritDerivObj N S w
        + t ^ 2 / 2 * lqCurv D N S.dt w.delta.x w.delta.u := by
    unfold meritDerivObj lqCurv
    simp only [forUp_add2, zero_add, dot_real]
    obtain ⟨ef, hef⟩ := h.φ
    have e1 : S.φ ((lsVar w.var w.delta t).x N) = S.φ (w.var.x N) + t * (w.term.V.Vx ⬝ᵥ w.delta.x N) + t ^ 2 / 2 * (w.delta.x N ⬝ᵥ D.Qf *ᵥ w.delta.x N) := by
      rw [ht, hef, hef]
      simp only [lsVar, smulv_real]
      exact term_line (posSemidef_iff.1 hD.Qf).1 _ _ _ _ _
    have e2 : ∀ i ∈ range N, S.dt * S.l i ((lsVar w.var w.delta t).x i) ((lsVar w.var w.delta t).u i) =
        S.dt * S.l i (w.var.x i) (w.var.u i) + t * (((w.coeff i).L.Lx ⬝ᵥ w.delta.x i + (w.coeff i).L.Lu ⬝ᵥ w.delta.u i) * S.dt
            + -1 * w.eps * (fun j => 1 / w.var.s i j) ⬝ᵥ w.delta.s i) + t ^ 2 / 2 *
          (S.dt * (w.delta.x i ⬝ᵥ D.Q i *ᵥ w.delta.x i + 2 * (w.delta.x i ⬝ᵥ D.M i *ᵥ w.delta.u i) + w.delta.u i ⬝ᵥ D.R i *ᵥ w.delta.u i)) := by
      intro i hi
      have hi := mem_range.1 hi
      obtain ⟨e, he⟩ := h.l i
      have e3 := stage_line (M := D.M i) (hD.Q i hi) (posDef_iff.1 (hD.R i hi)).1 (D.q i) (w.var.x i) (w.delta.x i) (D.r i) (w.var.u i) (w.delta.u i) e t
      rw [(hc i hi).2, he, he, vec_none (h.none i) (w.delta.s i), dotProduct_zero, mul_zero, add_zero]
      simp only [lsVar, smulv_real]
      rw [e3]
      ring
    rw [sum_congr rfl e2, e1, sum_add_distrib, sum_add_distrib, ← mul_sum _ _ t, ← mul_sum _ _ (t ^ 2 / 2)]
    ring
  unfold barrierMerit
  simp only [hlog, mul_zero, sub_zero, hviol]
  rw [hobj]
  ring

end Line
end Lq
end Nmpc.FMPC
