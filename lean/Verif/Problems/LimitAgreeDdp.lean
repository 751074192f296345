import Verif.Problems.LimitAgree

/-!
# DDP with input limits: constants of the problem (helper lemmas for C141)
-/

set_option linter.unusedSectionVars false

namespace Nmpc.Agree

open Matrix Finset
open DDP (timeAt LQProblem IsTrajectory Stretch FDeriv LDeriv VDeriv)

variable {n : ℕ} {md : ℝ → ℕ} {p : LQProblem n md} {lim : (t : ℝ) → Vec (md t) ℝ × Vec (md t) ℝ} {dt t0 : ℝ} {x0 : Vec n ℝ} {N : ℕ}

theorem sqrt_add_le {k : ℕ} (v w : Vec k ℝ) : Real.sqrt ((v + w) ⬝ᵥ (v + w)) ≤ Real.sqrt (v ⬝ᵥ v) + Real.sqrt (w ⬝ᵥ w) := by
  have h := (abs_le.1 (DDP.abs_dot_le_vnorm v w)).2
  have hv := DDP.vnorm_sq_dot v
  have hw := DDP.vnorm_sq_dot w
  rw [DDP.vnorm_real] at hv
  rw [DDP.vnorm_real] at hw
  rw [DDP.vnorm_real, DDP.vnorm_real] at h
  refine Real.sqrt_le_iff.2 ⟨by positivity, ?_⟩
  simp only [add_dotProduct, dotProduct_add]
  rw [dotProduct_comm w v]
  nlinarith

theorem limit_norm {k : ℕ} {lo hi u : Vec k ℝ} {c : ℝ} (hc : 0 ≤ c) (h : ∀ i, lo i - c ≤ u i ∧ u i ≤ hi i + c) : ‖u‖ ≤ ‖lo‖ + ‖hi‖ + c := by
  refine FMPC.norm_le_of_abs (by positivity) fun i => ?_
  have h1 := norm_le_pi_norm lo i
  have h2 := norm_le_pi_norm hi i
  rw [Real.norm_eq_abs] at h1 h2
  have h3 := (abs_le.1 h1).1
  have h4 := (abs_le.1 h2).2
  have := norm_nonneg lo
  have := norm_nonneg hi
  exact abs_le.2 ⟨by linarith [(h i).1], by linarith [(h i).2]⟩

/-- Bound on the inputs within the limits enlarged by one. -/
noncomputable def limitSize (lim : (t : ℝ) → Vec (md t) ℝ × Vec (md t) ℝ) (t0 dt : ℝ) (N : ℕ) : ℝ :=
  ∑ i ∈ range N, (‖(lim (timeAt t0 dt i)).1‖ + ‖(lim (timeAt t0 dt i)).2‖ + 1)

theorem limitSize_nonneg : 0 ≤ limitSize lim t0 dt N := sum_nonneg fun _ _ => by positivity

theorem norm_le_limitSize {i : ℕ} (hi : i < N) {u : Vec (md (timeAt t0 dt i)) ℝ} {c : ℝ} (h0 : 0 ≤ c) (h1 : c ≤ 1)
    (h : ∀ j, (lim (timeAt t0 dt i)).1 j - c ≤ u j ∧ u j ≤ (lim (timeAt t0 dt i)).2 j + c) : ‖u‖ ≤ limitSize lim t0 dt N := by
  have h2 := limit_norm h0 h
  have h3 : ‖(lim (timeAt t0 dt i)).1‖ + ‖(lim (timeAt t0 dt i)).2‖ + 1 ≤ limitSize lim t0 dt N :=
    single_le_sum (f := fun i => ‖(lim (timeAt t0 dt i)).1‖ + ‖(lim (timeAt t0 dt i)).2‖ + 1) (fun _ _ => by positivity) (mem_range.2 hi)
  linarith

/-- The derivatives of the problem along a trajectory. -/
noncomputable def lqF (p : LQProblem n md) (t0 dt : ℝ) (j : ℕ) : FDeriv n (md (timeAt t0 dt j)) ℝ :=
  ⟨p.A (timeAt t0 dt j), p.B (timeAt t0 dt j)⟩

noncomputable def lqL (p : LQProblem n md) (t0 dt : ℝ) (x : ℕ → Vec n ℝ) (u : (j : ℕ) → Vec (md (timeAt t0 dt j)) ℝ) (j : ℕ) :
    LDeriv n (md (timeAt t0 dt j)) ℝ := p.callbacks.runningCostDeriv (timeAt t0 dt j) (x j) (u j) ⟨0, 0, 0, 0, 0⟩

noncomputable def lqV (p : LQProblem n md) (t0 dt : ℝ) (N : ℕ) (x : ℕ → Vec n ℝ) : VDeriv n ℝ :=
  p.callbacks.terminalCostDeriv (timeAt t0 dt N) (x N) ⟨0, 0⟩

theorem data_bounds {μ : ℝ} (hp : p.StronglyConvex μ) (t0 dt : ℝ) (N : ℕ) : ∃ b, 0 ≤ b ∧ ∀ (x : ℕ → Vec n ℝ) (u : (j : ℕ) → Vec (md (timeAt t0 dt j)) ℝ),
    DDP.DataBounds N (⟨lqF p t0 dt, lqL p t0 dt x u, lqV p t0 dt N x⟩ : DDP.Derivs n (fun i => md (timeAt t0 dt i)) ℝ) b b μ := by
  have key : ∀ i, ∃ b, 0 ≤ b ∧ (Stretch (p.A (timeAt t0 dt i)) b ∧ Stretch (p.B (timeAt t0 dt i)) b ∧ Stretch (p.Q (timeAt t0 dt i)) b ∧
      Stretch (p.R (timeAt t0 dt i)) b ∧ Stretch (p.M (timeAt t0 dt i)) b) := by
    intro i
    obtain ⟨a1, h1, g1⟩ := stretch_exists (p.A (timeAt t0 dt i))
    obtain ⟨a2, h2, g2⟩ := stretch_exists (p.B (timeAt t0 dt i))
    obtain ⟨a3, h3, g3⟩ := stretch_exists (p.Q (timeAt t0 dt i))
    obtain ⟨a4, h4, g4⟩ := stretch_exists (p.R (timeAt t0 dt i))
    obtain ⟨a5, h5, g5⟩ := stretch_exists (p.M (timeAt t0 dt i))
    exact ⟨a1 + a2 + a3 + a4 + a5, by positivity, Stretch.mono g1 (by linarith), Stretch.mono g2 (by linarith), Stretch.mono g3 (by linarith),
      Stretch.mono g4 (by linarith), Stretch.mono g5 (by linarith)⟩
  obtain ⟨b, hb, h⟩ := FMPC.uniform_bound (Q := fun i b => Stretch (p.A (timeAt t0 dt i)) b ∧ Stretch (p.B (timeAt t0 dt i)) b ∧
      Stretch (p.Q (timeAt t0 dt i)) b ∧ Stretch (p.R (timeAt t0 dt i)) b ∧ Stretch (p.M (timeAt t0 dt i)) b)
    (fun i a b hab h => ⟨Stretch.mono h.1 hab, Stretch.mono h.2.1 hab, Stretch.mono h.2.2.1 hab, Stretch.mono h.2.2.2.1 hab,
      Stretch.mono h.2.2.2.2 hab⟩) key N
  obtain ⟨a, ha, g⟩ := stretch_exists (p.Qf (timeAt t0 dt N))
  refine ⟨b + a, by positivity, fun x u => ⟨fun j hj => Stretch.mono (h j hj.le).1 (by linarith),
    fun j hj => Stretch.mono (h j hj.le).2.1 (by linarith), fun j hj => Stretch.mono (h j hj.le).2.2.1 (by linarith),
    fun j hj => Stretch.mono (h j hj.le).2.2.2.1 (by linarith), fun j hj => Stretch.mono (h j hj.le).2.2.2.2 (by linarith),
    Stretch.mono g (by linarith), fun j hj v => ?_⟩⟩
  have := hp.stage (timeAt t0 dt j) 0 v
  simp only [zero_dotProduct, mulVec_zero, dotProduct_zero, mul_zero, zero_add] at this
  exact this

/-- The gradient of the cost with respect to the inputs is bounded on bounded trajectories. -/
theorem gradient_bounds (p : LQProblem n md) (t0 dt : ℝ) (N : ℕ) {ρ : ℝ} (hρ : 0 ≤ ρ) : ∃ G, 0 ≤ G ∧
    ∀ (x : ℕ → Vec n ℝ) (u : (j : ℕ) → Vec (md (timeAt t0 dt j)) ℝ) (q : ℕ → Vec n ℝ), (∀ j ≤ N, ‖x j‖ ≤ ρ) → (∀ j < N, ‖u j‖ ≤ ρ) →
      q N = (lqV p t0 dt N x).Vx → (∀ j < N, q j = (lqL p t0 dt x u j).Lx + (lqF p t0 dt j).Fxᵀ *ᵥ q (j + 1)) →
      ∀ j < N, Real.sqrt (((lqL p t0 dt x u j).Lu + (lqF p t0 dt j).Fuᵀ *ᵥ q (j + 1)) ⬝ᵥ
        ((lqL p t0 dt x u j).Lu + (lqF p t0 dt j).Fuᵀ *ᵥ q (j + 1))) ≤ G := by
  have co : ∀ i, ∃ B, 0 ≤ B ∧ (i ≤ N → ∀ (x : ℕ → Vec n ℝ) (u : (j : ℕ) → Vec (md (timeAt t0 dt j)) ℝ) (q : ℕ → Vec n ℝ),
      (∀ j ≤ N, ‖x j‖ ≤ ρ) → (∀ j < N, ‖u j‖ ≤ ρ) → q N = (lqV p t0 dt N x).Vx →
      (∀ j < N, q j = (lqL p t0 dt x u j).Lx + (lqF p t0 dt j).Fxᵀ *ᵥ q (j + 1)) → ‖q (N - i)‖ ≤ B) := by
    intro i
    induction i with
    | zero =>
      obtain ⟨a, ha, g⟩ := FMPC.mulVec_norm_le (p.Qf (timeAt t0 dt N))
      refine ⟨a * ρ + ‖p.qf (timeAt t0 dt N)‖, by positivity, fun _ x u q hx _ hN _ => ?_⟩
      rw [Nat.sub_zero, hN]
      show ‖p.Qf (timeAt t0 dt N) *ᵥ x N + p.qf (timeAt t0 dt N)‖ ≤ _
      have h1 := norm_add_le (p.Qf (timeAt t0 dt N) *ᵥ x N) (p.qf (timeAt t0 dt N))
      have h2 := (g (x N)).trans (mul_le_mul_of_nonneg_left (hx N le_rfl) ha)
      linarith
    | succ i ih =>
      obtain ⟨B, hB, h⟩ := ih
      set j := N - (i + 1) with hj
      obtain ⟨a1, ha1, g1⟩ := FMPC.mulVec_norm_le (p.Q (timeAt t0 dt j))
      obtain ⟨a2, ha2, g2⟩ := FMPC.mulVec_norm_le (p.M (timeAt t0 dt j))
      obtain ⟨a3, ha3, g3⟩ := FMPC.mulVec_norm_le (p.A (timeAt t0 dt j))ᵀ
      refine ⟨a1 * ρ + a2 * ρ + ‖p.q (timeAt t0 dt j)‖ + a3 * B, by positivity, fun hi x u q hx hu hN hq => ?_⟩
      have hjN : j < N := by omega
      have h1 := h (by omega) x u q hx hu hN hq
      rw [show N - i = j + 1 by omega] at h1
      rw [hq j hjN]
      show ‖p.Q (timeAt t0 dt j) *ᵥ x j + p.M (timeAt t0 dt j) *ᵥ u j + p.q (timeAt t0 dt j) + (p.A (timeAt t0 dt j))ᵀ *ᵥ q (j + 1)‖ ≤ _
      have b1 := (g1 (x j)).trans (mul_le_mul_of_nonneg_left (hx j hjN.le) ha1)
      have b2 := (g2 (u j)).trans (mul_le_mul_of_nonneg_left (hu j hjN) ha2)
      have b3 := (g3 (q (j + 1))).trans (mul_le_mul_of_nonneg_left h1 ha3)
      have c1 := norm_add_le (p.Q (timeAt t0 dt j) *ᵥ x j + p.M (timeAt t0 dt j) *ᵥ u j + p.q (timeAt t0 dt j)) ((p.A (timeAt t0 dt j))ᵀ *ᵥ q (j + 1))
      have c2 := norm_add_le (p.Q (timeAt t0 dt j) *ᵥ x j + p.M (timeAt t0 dt j) *ᵥ u j) (p.q (timeAt t0 dt j))
      have c3 := norm_add_le (p.Q (timeAt t0 dt j) *ᵥ x j) (p.M (timeAt t0 dt j) *ᵥ u j)
      linarith
  have key : ∀ j, ∃ G, 0 ≤ G ∧ (j < N → ∀ (x : ℕ → Vec n ℝ) (u : (j : ℕ) → Vec (md (timeAt t0 dt j)) ℝ) (q : ℕ → Vec n ℝ),
      (∀ j ≤ N, ‖x j‖ ≤ ρ) → (∀ j < N, ‖u j‖ ≤ ρ) → q N = (lqV p t0 dt N x).Vx →
      (∀ j < N, q j = (lqL p t0 dt x u j).Lx + (lqF p t0 dt j).Fxᵀ *ᵥ q (j + 1)) →
      Real.sqrt (((lqL p t0 dt x u j).Lu + (lqF p t0 dt j).Fuᵀ *ᵥ q (j + 1)) ⬝ᵥ
        ((lqL p t0 dt x u j).Lu + (lqF p t0 dt j).Fuᵀ *ᵥ q (j + 1))) ≤ G) := by
    intro j
    obtain ⟨B, hB, h⟩ := co (N - (j + 1))
    obtain ⟨a1, ha1, g1⟩ := FMPC.mulVec_norm_le (p.M (timeAt t0 dt j))ᵀ
    obtain ⟨a2, ha2, g2⟩ := FMPC.mulVec_norm_le (p.R (timeAt t0 dt j))
    obtain ⟨a3, ha3, g3⟩ := FMPC.mulVec_norm_le (p.B (timeAt t0 dt j))ᵀ
    refine ⟨md (timeAt t0 dt j) * (a1 * ρ + a2 * ρ + ‖p.r (timeAt t0 dt j)‖ + a3 * B), by positivity, fun hjN x u q hx hu hN hq => ?_⟩
    have h1 := h (by omega) x u q hx hu hN hq
    rw [show N - (N - (j + 1)) = j + 1 by omega] at h1
    refine sqrt_le_norm ?_
    show ‖(p.M (timeAt t0 dt j))ᵀ *ᵥ x j + p.R (timeAt t0 dt j) *ᵥ u j + p.r (timeAt t0 dt j) + (p.B (timeAt t0 dt j))ᵀ *ᵥ q (j + 1)‖ ≤ _
    have b1 := (g1 (x j)).trans (mul_le_mul_of_nonneg_left (hx j hjN.le) ha1)
    have b2 := (g2 (u j)).trans (mul_le_mul_of_nonneg_left (hu j hjN) ha2)
    have b3 := (g3 (q (j + 1))).trans (mul_le_mul_of_nonneg_left h1 ha3)
    have c1 := norm_add_le ((p.M (timeAt t0 dt j))ᵀ *ᵥ x j + p.R (timeAt t0 dt j) *ᵥ u j + p.r (timeAt t0 dt j)) ((p.B (timeAt t0 dt j))ᵀ *ᵥ q (j + 1))
    have c2 := norm_add_le ((p.M (timeAt t0 dt j))ᵀ *ᵥ x j + p.R (timeAt t0 dt j) *ᵥ u j) (p.r (timeAt t0 dt j))
    have c3 := norm_add_le ((p.M (timeAt t0 dt j))ᵀ *ᵥ x j) (p.R (timeAt t0 dt j) *ᵥ u j)
    linarith
  obtain ⟨G, hG, h⟩ := FMPC.uniform_bound (Q := fun j G => j < N → ∀ (x : ℕ → Vec n ℝ) (u : (j : ℕ) → Vec (md (timeAt t0 dt j)) ℝ) (q : ℕ → Vec n ℝ),
      (∀ j ≤ N, ‖x j‖ ≤ ρ) → (∀ j < N, ‖u j‖ ≤ ρ) → q N = (lqV p t0 dt N x).Vx →
      (∀ j < N, q j = (lqL p t0 dt x u j).Lx + (lqF p t0 dt j).Fxᵀ *ᵥ q (j + 1)) →
      Real.sqrt (((lqL p t0 dt x u j).Lu + (lqF p t0 dt j).Fuᵀ *ᵥ q (j + 1)) ⬝ᵥ
        ((lqL p t0 dt x u j).Lu + (lqF p t0 dt j).Fuᵀ *ᵥ q (j + 1))) ≤ G)
    (fun i a b hab h hi x u q h1 h2 h3 h4 => (h hi x u q h1 h2 h3 h4).trans hab) key N
  exact ⟨G, hG, fun x u q h1 h2 h3 h4 j hj => h j hj.le hj x u q h1 h2 h3 h4⟩

/-- The settings of the solver under which the theorems hold. -/
structure LimitSettings (cfg : DDP.Config ℝ) (lamT : ℝ) : Prop where
  limits : cfg.withConstraint = true
  first : cfg.useSecond = false
  factor : 1 < cfg.lambdaFactor
  lmin : 0 < cfg.lambdaMin
  init : 0 ≤ cfg.initialLambda
  linit : cfg.initialLambda ≤ cfg.lambdaMax
  dinit : 0 < cfg.initialDlambda
  alpha : (0 : ℝ) ∉ cfg.alphaList
  thre : cfg.lambdaThre = lamT
  k0 : 0 ≤ cfg.kRelNormThre
  k1 : cfg.kRelNormThre ≤ 1 / 2

/-- The derivatives at a trajectory, with the last backward pass of the solver. -/
abbrev PassAt (L : LLT ℝ) (cfg : DDP.Config ℝ) (p : LQProblem n md) (lim : (t : ℝ) → Vec (md t) ℝ × Vec (md t) ℝ) (t0 dt : ℝ) (N : ℕ)
    (x : ℕ → Vec n ℝ) (u : (j : ℕ) → Vec (md (timeAt t0 dt j)) ℝ) (lambda : ℝ) (V : ℕ → VDeriv n ℝ)
    (k : (j : ℕ) → Vec (md (timeAt t0 dt j)) ℝ) (K : (j : ℕ) → Mat (md (timeAt t0 dt j)) n ℝ) : Prop :=
  DDP.LimitPass L cfg N (fun j => (lim (timeAt t0 dt j)).1) (fun j => (lim (timeAt t0 dt j)).2) u (lqF p t0 dt) (lqL p t0 dt x u)
    (lqV p t0 dt N x) lambda V k K

abbrev CertifiedAt (L : LLT ℝ) (cfg : DDP.Config ℝ) (p : LQProblem n md) (lim : (t : ℝ) → Vec (md t) ℝ × Vec (md t) ℝ) (t0 dt : ℝ) (N : ℕ)
    (x : ℕ → Vec n ℝ) (u : (j : ℕ) → Vec (md (timeAt t0 dt j)) ℝ) (lambda : ℝ) (V : ℕ → VDeriv n ℝ)
    (k : (j : ℕ) → Vec (md (timeAt t0 dt j)) ℝ) (K : (j : ℕ) → Mat (md (timeAt t0 dt j)) n ℝ) : Prop :=
  DDP.CertifiedPass L cfg N (fun j => (lim (timeAt t0 dt j)).1) (fun j => (lim (timeAt t0 dt j)).2) u (lqF p t0 dt) (lqL p t0 dt x u)
    lambda V k K

theorem ddp_near_ball {μ lamT : ℝ} (hp : p.StronglyConvex μ) (hdt : 0 < dt) (hlam : 0 ≤ lamT) (hlu : ∀ t i, (lim t).1 i ≤ (lim t).2 i)
    (t0 : ℝ) (N : ℕ) {r0 : ℝ} (hr0 : 0 ≤ r0) :
    ∃ C, 1 ≤ C ∧ ∀ (x0 : Vec n ℝ) (L : LLT ℝ) (cfg : DDP.Config ℝ) (o : DDP.Obj n ℝ) (scratch : DDP.Scratch n (fun i => md (timeAt t0 dt i)) ℝ)
      (us : List (Σ k : ℕ, Vec k ℝ)) (e : DDP.Trace ℝ), L.Exact → LimitSettings cfg lamT → us.length = N → (us.length : ℤ) = cfg.horizon →
      DDP.DimsOk md t0 dt us → (DDP.solve L p.callbacks (some lim) dt cfg o t0 scratch x0 us).2 = .ok true →
      (DDP.solve L p.callbacks (some lim) dt cfg o t0 scratch x0 us).1.trace.getLast? = some e → e.alpha = 0 →
      ∃ (x : ℕ → Vec n ℝ) (u : (j : ℕ) → Vec (md (timeAt t0 dt j)) ℝ) (lambda : ℝ) (V : ℕ → VDeriv n ℝ)
        (k : (j : ℕ) → Vec (md (timeAt t0 dt j)) ℝ) (K : (j : ℕ) → Mat (md (timeAt t0 dt j)) n ℝ),
        (∀ j ≤ N, (DDP.solve L p.callbacks (some lim) dt cfg o t0 scratch x0 us).1.control.xs[j]? = some (x j)) ∧
        (∀ j < N, (DDP.solve L p.callbacks (some lim) dt cfg o t0 scratch x0 us).1.control.us[j]? = some ⟨md (timeAt t0 dt j), u j⟩) ∧
        0 ≤ lambda ∧ PassAt L cfg p lim t0 dt N x u lambda V k K ∧
        (∀ j < N, ∀ i, (lim (timeAt t0 dt j)).1 i ≤ u j i + k j i ∧ u j i + k j i ≤ (lim (timeAt t0 dt j)).2 i) ∧
        (∀ j < N, ‖k j‖ ≤ C * cfg.kRelNormThre) ∧
        (‖x0‖ ≤ r0 → CertifiedAt L cfg p lim t0 dt N x u lambda V k K →
          ∀ w : (j : ℕ) → Vec (md (timeAt t0 dt j)) ℝ,
            (∀ j < N, ∀ i, (lim (timeAt t0 dt j)).1 i ≤ w j i ∧ w j i ≤ (lim (timeAt t0 dt j)).2 i) →
            FMPC.trajCost (fmpcBox p lim dt) t0 dt N (FMPC.rollOut (fmpcBox p lim dt) t0 dt x0 fun j => u j + k j) (fun j => u j + k j) ≤
              FMPC.trajCost (fmpcBox p lim dt) t0 dt N (FMPC.rollOut (fmpcBox p lim dt) t0 dt x0 w) w +
                C * (cfg.kRelNormThre + 1 / 10 ^ 8)) := by
  have hP := fmpcBox_convex (lim := lim) hp.convex hdt
  have hμ := hp.pos
  obtain ⟨b, hb, hdata⟩ := data_bounds hp t0 dt N
  obtain ⟨R, hR0, hR⟩ : ∃ R, 0 ≤ R ∧ ∀ i < N, ∀ u : Vec (md (timeAt t0 dt i)) ℝ,
      (∀ j, (lim (timeAt t0 dt i)).1 j ≤ u j ∧ u j ≤ (lim (timeAt t0 dt i)).2 j) → ‖u‖ ≤ R :=
    ⟨_, limitSize_nonneg (lim := lim) (t0 := t0) (dt := dt) (N := N), fun i hi u h => norm_le_limitSize hi le_rfl zero_le_one (by simpa using h)⟩
  obtain ⟨M, hM0, hM⟩ : ∃ M : ℝ, 0 ≤ M ∧ ∀ i < N, (md (timeAt t0 dt i) : ℝ) ≤ M :=
    ⟨∑ i ∈ range N, (md (timeAt t0 dt i) : ℝ), sum_nonneg fun _ _ => Nat.cast_nonneg _, fun i hi =>
      single_le_sum (f := fun i => (md (timeAt t0 dt i) : ℝ)) (fun _ _ => Nat.cast_nonneg _) (mem_range.2 hi)⟩
  obtain ⟨S, hS0, hS⟩ : ∃ S, 0 ≤ S ∧ S = M * R := ⟨_, by positivity, rfl⟩
  obtain ⟨T, hT0, hT⟩ : ∃ T, 0 ≤ T ∧ T = 2 * S + 2 := ⟨_, by positivity, rfl⟩
  obtain ⟨ρ, hρ, hroll⟩ := FMPC.roll_bounded_ball (t0 := t0) (dt := dt) hP N hr0 (R := T + R) (by positivity)
  obtain ⟨KJ, hKJ, hJ⟩ := cost_lip_ball (t0 := t0) (N := N) hP hdt.le hr0 fmpcBox_run_contDiff fmpcBox_term_contDiff (R := T + R) (by positivity)
  obtain ⟨G, hG0, hG⟩ := gradient_bounds p t0 dt N (ρ := ρ + (T + R)) (by positivity)
  obtain ⟨E, hE0, hE⟩ : ∃ E, 0 ≤ E ∧ ∀ j < N, DDP.limitBound b b μ lamT (N - (j + 1)) ≤ E :=
    ⟨∑ j ∈ range N, DDP.limitBound b b μ lamT (N - (j + 1)), sum_nonneg fun _ _ => DDP.limitBound_nonneg hb hb hμ hlam _, fun j hj =>
      single_le_sum (f := fun j => DDP.limitBound b b μ lamT (N - (j + 1))) (fun _ _ => DDP.limitBound_nonneg hb hb hμ hlam _) (mem_range.2 hj)⟩
  refine ⟨1 + T + KJ * T + N * (E * (T + 1) * (M * (2 * R)) + T * G), by
    have : 0 ≤ KJ * T := by positivity
    have : 0 ≤ N * (E * (T + 1) * (M * (2 * R)) + T * G) := by positivity
    linarith, ?_⟩
  intro x0 L cfg o scratch us e hL hc hlen hN hd hres hlast he
  have hk0 := hc.k0
  have hk1 := hc.k1
  have n1 : 0 ≤ KJ * T := by positivity
  have n2 : 0 ≤ N * (E * (T + 1) * (M * (2 * R)) + T * G) := by positivity
  subst hlen
  obtain ⟨_, s, s2, hr, -, -, -, hctrl⟩ := DDP.small_exit hN hd hc.alpha hres hlast he
  have hcons := DDP.reaches_consistent (DDP.rollout_consistent _ _) hr
  have hcons' : DDP.Consistent us.length (DDP.stagesOf p.callbacks none t0 dt us.length) x0 s.ctrl :=
    ⟨hcons.start, hcons.step, hcons.run, hcons.term⟩
  obtain ⟨hxr, hcost⟩ := box_cost (lim := lim) hdt hcons'
  have hx : ∀ j ≤ us.length, (DDP.solve L p.callbacks (some lim) dt cfg o t0 scratch x0 us).1.control.xs[j]? = some (s.ctrl.x j) :=
    fun j hj => by rw [hctrl]; exact DDP.out_xs_get _ hj
  have hu : ∀ j < us.length, (DDP.solve L p.callbacks (some lim) dt cfg o t0 scratch x0 us).1.control.us[j]? =
      some ⟨md (timeAt t0 dt j), s.ctrl.u j⟩ := fun j hj => by rw [hctrl]; exact DDP.out_us_get _ hj
  -- the inputs are bounded
  obtain ⟨_, _, la, V, k, K, -, -, -, -, -, -, l1, l2, l3, l4⟩ := DDP.last_pass hc.limits hc.first hc.factor hc.lmin hc.init hc.linit hc.dinit hc.alpha hN hd hres hlast he
    s.ctrl.x s.ctrl.u hx hu (lqF p t0 dt) (lqL p t0 dt s.ctrl.x s.ctrl.u) (lqV p t0 dt us.length s.ctrl.x) (fun _ _ _ => rfl) (fun _ _ _ => rfl)
    (fun _ => rfl)
  have hsize : ∀ (la : ℝ) (V : ℕ → VDeriv n ℝ) (k : (j : ℕ) → Vec (md (timeAt t0 dt j)) ℝ) (K : (j : ℕ) → Mat (md (timeAt t0 dt j)) n ℝ),
      PassAt L cfg p lim t0 dt us.length s.ctrl.x s.ctrl.u la V k K →
      (∀ j < us.length, Real.sqrt (k j ⬝ᵥ k j) ≤ cfg.kRelNormThre * (Real.sqrt (s.ctrl.u j ⬝ᵥ s.ctrl.u j) + 1)) →
      (∀ j < us.length, ∀ i, (lim (timeAt t0 dt j)).1 i ≤ s.ctrl.u j i + k j i ∧ s.ctrl.u j i + k j i ≤ (lim (timeAt t0 dt j)).2 i) ∧
      ∀ j < us.length, ‖s.ctrl.u j + k j‖ ≤ R ∧ Real.sqrt (s.ctrl.u j ⬝ᵥ s.ctrl.u j) + 1 ≤ T := by
    intro la V k K hpass hk
    have hin : ∀ j < us.length, ∀ i, (lim (timeAt t0 dt j)).1 i ≤ s.ctrl.u j i + k j i ∧
        s.ctrl.u j i + k j i ≤ (lim (timeAt t0 dt j)).2 i := fun j hj i =>
      DDP.LimitPass.within (d := ⟨lqF p t0 dt, lqL p t0 dt s.ctrl.x s.ctrl.u, lqV p t0 dt us.length s.ctrl.x⟩) hpass (fun j _ => hlu _) hj i
    refine ⟨hin, fun j hj => ?_⟩
    have h1 : ‖s.ctrl.u j + k j‖ ≤ R := hR j hj _ (hin j hj)
    refine ⟨h1, ?_⟩
    have h2 : Real.sqrt ((s.ctrl.u j + k j) ⬝ᵥ (s.ctrl.u j + k j)) ≤ S := by
      refine (sqrt_le_norm h1).trans ?_
      rw [hS]
      exact mul_le_mul_of_nonneg_right (hM j hj) hR0
    have h3 := sqrt_add_le (s.ctrl.u j + k j) (-k j)
    rw [add_neg_cancel_right, neg_dotProduct_neg] at h3
    have h4 := hk j hj
    have h5 : cfg.kRelNormThre * (Real.sqrt (s.ctrl.u j ⬝ᵥ s.ctrl.u j) + 1) ≤ 1 / 2 * (Real.sqrt (s.ctrl.u j ⬝ᵥ s.ctrl.u j) + 1) :=
      mul_le_mul_of_nonneg_right hk1 (by positivity)
    rw [hT]
    linarith
  have hsz : ∀ j < us.length, Real.sqrt (s.ctrl.u j ⬝ᵥ s.ctrl.u j) + 1 ≤ T := fun j hj => ((hsize la V k K l4 l3).2 j hj).2
  clear l1 l2 l3 l4 la V k K
  have hsu : ∀ j < us.length, ‖s.ctrl.u j‖ ≤ T + R := fun j hj => by
    have := norm_le_sqrt (s.ctrl.u j)
    linarith [hsz j hj]
  have hκ : ∀ j < us.length, cfg.kRelNormThre * (Real.sqrt (s.ctrl.u j ⬝ᵥ s.ctrl.u j) + 1) ≤ cfg.kRelNormThre * T :=
    fun j hj => mul_le_mul_of_nonneg_left (hsz j hj) hk0
  obtain ⟨q, hqN, hq⟩ := DDP.costate_exists (P := p.callbacks) us.length s.ctrl.x s.ctrl.u (fun _ => ⟨0, 0⟩) (fun _ => ⟨0, 0, 0, 0, 0⟩) ⟨0, 0⟩
  obtain ⟨la, V, k, K, g1, -, g3, g4, g5⟩ := DDP.C132_gap hL hc.limits hc.first hp.convex hc.factor hc.lmin hc.init hc.linit hc.dinit hc.alpha hlu
    hN hd hres hlast he s.ctrl.x s.ctrl.u hx hu (lqF p t0 dt) (lqL p t0 dt s.ctrl.x s.ctrl.u) (lqV p t0 dt us.length s.ctrl.x) (fun _ _ _ => rfl)
    (fun _ _ _ => rfl) (fun _ => rfl) hb hb hμ (hdata s.ctrl.x s.ctrl.u) hκ q hqN hq
  obtain ⟨hin, hsz'⟩ := hsize la V k K g4 g3
  have hkn : ∀ j < us.length, ‖k j‖ ≤ cfg.kRelNormThre * T := fun j hj => (norm_le_sqrt _).trans ((g3 j hj).trans (hκ j hj))
  refine ⟨s.ctrl.x, s.ctrl.u, la, V, k, K, hx, hu, g1, g4, hin, fun j hj => (hkn j hj).trans ?_, fun hx0 hcert w hw => ?_⟩
  · rw [mul_comm]
    exact mul_le_mul_of_nonneg_right (by linarith) hk0
  have hwc := ctrlOf_consistent (p := p) (t0 := t0) (dt := dt) (N := us.length) (x0 := x0)
    (x := FMPC.rollOut (fmpcBox p lim dt) t0 dt x0 w) (u := w) rfl (fun _ _ => rfl)
  have hgap := g5 hcert _ w (DDP.out_isTrajectory hwc) (fun j hj => DDP.out_us_get _ hj) hw
  have hwcost : FMPC.trajCost (fmpcBox p lim dt) t0 dt us.length (FMPC.rollOut (fmpcBox p lim dt) t0 dt x0 w) w =
      ((ctrlOf p t0 dt us.length (FMPC.rollOut (fmpcBox p lim dt) t0 dt x0 w) w).out us.length).costs.sum := (box_cost (lim := lim) hdt hwc).2
  rw [hctrl, ← hcost, ← hwcost] at hgap
  have hstep := hJ x0 (fun j => s.ctrl.u j + k j) s.ctrl.u (cfg.kRelNormThre * T) hx0 (by positivity) (fun j hj => by linarith [(hsz' j hj).1]) hsu
    (fun j hj => by rw [add_sub_cancel_left]; exact hkn j hj)
  have hsum : ∑ j ∈ range us.length, (DDP.limitBound b b μ cfg.lambdaThre (us.length - (j + 1)) * (cfg.kRelNormThre * T + 1 / 10 ^ 8) *
        Real.sqrt ((w j - (s.ctrl.u j + k j)) ⬝ᵥ (w j - (s.ctrl.u j + k j))) +
      cfg.kRelNormThre * T * Real.sqrt (((lqL p t0 dt s.ctrl.x s.ctrl.u j).Lu + (lqF p t0 dt j).Fuᵀ *ᵥ q (j + 1)) ⬝ᵥ
        ((lqL p t0 dt s.ctrl.x s.ctrl.u j).Lu + (lqF p t0 dt j).Fuᵀ *ᵥ q (j + 1)))) ≤
      ∑ _j ∈ range us.length, (E * (T + 1) * (M * (2 * R)) + T * G) * (cfg.kRelNormThre + 1 / 10 ^ 8) := by
    refine sum_le_sum fun j hj => ?_
    have hj := mem_range.1 hj
    rw [hc.thre]
    have a1 := hE j hj
    have a2 : Real.sqrt ((w j - (s.ctrl.u j + k j)) ⬝ᵥ (w j - (s.ctrl.u j + k j))) ≤ M * (2 * R) := by
      have b1 := norm_sub_le (w j) (s.ctrl.u j + k j)
      have b2 := hR j hj (w j) (hw j hj)
      refine (sqrt_le_norm (c := 2 * R) (by linarith [(hsz' j hj).1])).trans ?_
      exact mul_le_mul_of_nonneg_right (hM j hj) (by positivity)
    have a3 := hG s.ctrl.x s.ctrl.u q (fun j hj => by rw [hxr j hj]; linarith [hroll j hj x0 s.ctrl.u hx0 hsu]) (fun j hj => by linarith [hsu j hj])
      hqN hq j hj
    have a4 : cfg.kRelNormThre * T + 1 / 10 ^ 8 ≤ (T + 1) * (cfg.kRelNormThre + 1 / 10 ^ 8) := by
      have : 0 ≤ T * (1 / 10 ^ 8) := by positivity
      linarith
    have a5 : DDP.limitBound b b μ lamT (us.length - (j + 1)) * (cfg.kRelNormThre * T + 1 / 10 ^ 8) *
        Real.sqrt ((w j - (s.ctrl.u j + k j)) ⬝ᵥ (w j - (s.ctrl.u j + k j))) ≤
        E * ((T + 1) * (cfg.kRelNormThre + 1 / 10 ^ 8)) * (M * (2 * R)) :=
      mul_le_mul (mul_le_mul a1 a4 (by positivity) hE0) a2 (Real.sqrt_nonneg _) (by positivity)
    have a6 := mul_le_mul_of_nonneg_left a3 (show 0 ≤ cfg.kRelNormThre * T by positivity)
    have a7 : 0 ≤ T * G * (1 / 10 ^ 8) := by positivity
    linarith
  rw [sum_const, card_range, nsmul_eq_mul] at hsum
  have f1 : 0 ≤ KJ * T * (1 / 10 ^ 8) := by positivity
  have f2 : 0 ≤ (1 + T) * (cfg.kRelNormThre + 1 / 10 ^ 8) := by positivity
  have hfin := hgap.trans (add_le_add le_rfl hsum)
  have hfin' := hstep.trans (add_le_add hfin le_rfl)
  refine hfin'.trans ?_
  linarith


theorem ddp_near {μ lamT : ℝ} (hp : p.StronglyConvex μ) (hdt : 0 < dt) (hlam : 0 ≤ lamT) (hlu : ∀ t i, (lim t).1 i ≤ (lim t).2 i)
    (t0 : ℝ) (x0 : Vec n ℝ) (N : ℕ) :
    ∃ C, 1 ≤ C ∧ ∀ (L : LLT ℝ) (cfg : DDP.Config ℝ) (o : DDP.Obj n ℝ) (scratch : DDP.Scratch n (fun i => md (timeAt t0 dt i)) ℝ)
      (us : List (Σ k : ℕ, Vec k ℝ)) (e : DDP.Trace ℝ), L.Exact → LimitSettings cfg lamT → us.length = N → (us.length : ℤ) = cfg.horizon →
      DDP.DimsOk md t0 dt us → (DDP.solve L p.callbacks (some lim) dt cfg o t0 scratch x0 us).2 = .ok true →
      (DDP.solve L p.callbacks (some lim) dt cfg o t0 scratch x0 us).1.trace.getLast? = some e → e.alpha = 0 →
      ∃ (x : ℕ → Vec n ℝ) (u : (j : ℕ) → Vec (md (timeAt t0 dt j)) ℝ) (lambda : ℝ) (V : ℕ → VDeriv n ℝ)
        (k : (j : ℕ) → Vec (md (timeAt t0 dt j)) ℝ) (K : (j : ℕ) → Mat (md (timeAt t0 dt j)) n ℝ),
        (∀ j ≤ N, (DDP.solve L p.callbacks (some lim) dt cfg o t0 scratch x0 us).1.control.xs[j]? = some (x j)) ∧
        (∀ j < N, (DDP.solve L p.callbacks (some lim) dt cfg o t0 scratch x0 us).1.control.us[j]? = some ⟨md (timeAt t0 dt j), u j⟩) ∧
        0 ≤ lambda ∧ PassAt L cfg p lim t0 dt N x u lambda V k K ∧
        (∀ j < N, ∀ i, (lim (timeAt t0 dt j)).1 i ≤ u j i + k j i ∧ u j i + k j i ≤ (lim (timeAt t0 dt j)).2 i) ∧
        (∀ j < N, ‖k j‖ ≤ C * cfg.kRelNormThre) ∧
        (CertifiedAt L cfg p lim t0 dt N x u lambda V k K →
          ∀ w : (j : ℕ) → Vec (md (timeAt t0 dt j)) ℝ,
            (∀ j < N, ∀ i, (lim (timeAt t0 dt j)).1 i ≤ w j i ∧ w j i ≤ (lim (timeAt t0 dt j)).2 i) →
            FMPC.trajCost (fmpcBox p lim dt) t0 dt N (FMPC.rollOut (fmpcBox p lim dt) t0 dt x0 fun j => u j + k j) (fun j => u j + k j) ≤
              FMPC.trajCost (fmpcBox p lim dt) t0 dt N (FMPC.rollOut (fmpcBox p lim dt) t0 dt x0 w) w +
                C * (cfg.kRelNormThre + 1 / 10 ^ 8)) := by
  obtain ⟨C, hC, h⟩ := ddp_near_ball (lim := lim) hp hdt hlam hlu t0 N (norm_nonneg x0)
  refine ⟨C, hC, fun L cfg o scratch us e h1 h2 h3 h4 h5 h6 h7 h8 => ?_⟩
  obtain ⟨x, u, la, V, k, K, g1, g2, g3, g4, g5, g6, g7⟩ := h x0 L cfg o scratch us e h1 h2 h3 h4 h5 h6 h7 h8
  exact ⟨x, u, la, V, k, K, g1, g2, g3, g4, g5, g6, g7 le_rfl⟩

end Nmpc.Agree
