import Verif.CGMRES.ExtremalUnique
import Verif.CGMRES.LinearOde
import Verif.CGMRES.PontryaginProps

/-!
# C148: on short horizons the continuous state and costate of every plan exist
-/

namespace Nmpc.Cgmres

open Set Finset

variable {n m : ℕ}

section Stage

variable {X E : Type} [NormedAddCommGroup X] [NormedSpace ℝ X] [FiniteDimensional ℝ X] [NormedAddCommGroup E] [NormedSpace ℝ E] [FiniteDimensional ℝ E]

omit [FiniteDimensional ℝ E] in
/-- The Picard-Lindelöf theorem of Mathlib, with the information that the solution is continuous and stays in the ball. -/
theorem picard_in_ball [CompleteSpace E] {f : ℝ → E → E} {tmin tmax : ℝ} {t₀ : Icc tmin tmax} {x₀ : E} {a L K : NNReal} (hf : IsPicardLindelof f t₀ x₀ a 0 L K) :
    ∃ y : ℝ → E, Continuous y ∧ y t₀ = x₀ ∧ (∀ t ∈ Icc tmin tmax, HasDerivWithinAt y (f t (y t)) (Icc tmin tmax) t) ∧ ∀ t, y t ∈ Metric.closedBall x₀ a := by
  obtain ⟨α, hα⟩ := ODE.FunSpace.exists_isFixedPt_next hf (Metric.mem_closedBall_self le_rfl)
  refine ⟨α.compProj, α.continuous_compProj, by rw [ODE.FunSpace.compProj_val, ← hα, ODE.FunSpace.next_apply₀], fun t ht => ?_,
    fun t => α.compProj_mem_closedBall hf.mul_max_le⟩
  refine (ODE.hasDerivWithinAt_picard_Icc t₀.2 hf.continuousOn_uncurry α.continuous_compProj.continuousOn
    (fun _ _ => α.compProj_mem_closedBall hf.mul_max_le) x₀ ht).congr_of_mem (fun t ht => ?_) ht
  nth_rw 1 [← hα]
  rw [ODE.FunSpace.compProj_of_mem ht, ODE.FunSpace.next_apply]

/-- One stage. -/
theorem exists_stage {φ : X × E → E} (hφ : ContDiff ℝ 1 φ) {M ρ : ℝ} (hM0 : 0 ≤ M) (hM : ∀ q ∈ Metric.closedBall (0 : X × E) ρ, ‖φ q‖ ≤ M) {a b e : ℝ} (he : e ∈ Icc a b)
    {c : ℝ → X} (hc : ContinuousOn c (Icc a b)) (hcb : ∀ s ∈ Icc a b, ‖c s‖ ≤ ρ) {x : E} (hx : ‖x‖ + M * (b - a) ≤ ρ) :
    ∃ y : ℝ → E, Continuous y ∧ y e = x ∧ (∀ s ∈ Icc a b, HasDerivWithinAt y (φ (c s, y s)) (Icc a b) s) ∧ ∀ s ∈ Icc a b, ‖y s‖ ≤ ‖x‖ + M * (b - a) := by
  have : CompleteSpace E := FiniteDimensional.complete ℝ E
  obtain ⟨K, hK⟩ := lipschitz_ball hφ ρ
  have hab : 0 ≤ b - a := by linarith [he.1, he.2]
  have hr0 : 0 ≤ M * (b - a) := mul_nonneg hM0 hab
  have hball : ∀ s ∈ Icc a b, ∀ z ∈ Metric.closedBall x (M * (b - a)), (c s, z) ∈ Metric.closedBall (0 : X × E) ρ := by
    intro s hs z hz
    rw [mem_closedBall_zero_iff]
    refine max_le (hcb s hs) ?_
    have h1 := norm_le_norm_add_norm_sub' z x
    rw [mem_closedBall_iff_norm] at hz
    exact h1.trans (by linarith)
  have hp : IsPicardLindelof (fun s z => φ (c s, z)) (⟨e, he⟩ : Icc a b) x ⟨M * (b - a), hr0⟩ 0 ⟨M, hM0⟩ K := by
    refine ⟨fun s hs z hz z' hz' => ?_, fun z _ => ?_, fun s hs z hz => hM _ (hball s hs z hz), ?_⟩
    · refine (hK (hball s hs z hz) (hball s hs z' hz')).trans (le_of_eq ?_)
      rw [Prod.edist_eq]
      simp
    · exact hφ.continuous.comp_continuousOn (hc.prodMk continuousOn_const)
    · change M * max (b - e) (e - a) ≤ M * (b - a) - 0
      rw [sub_zero]
      exact mul_le_mul_of_nonneg_left (max_le (by linarith [he.1]) (by linarith [he.2])) hM0
  obtain ⟨y, yc, y0, yd, yb⟩ := picard_in_ball hp
  refine ⟨y, yc, y0, yd, fun s _ => ?_⟩
  have h1 := norm_le_norm_add_norm_sub' (y s) x
  have h2 : ‖y s - x‖ ≤ M * (b - a) := mem_closedBall_iff_norm.1 (yb s)
  exact h1.trans (by linarith)

/-- Forwards over `N` stages. -/
theorem exists_forward {φ : ℕ → ℝ × E → E} (hφ : ∀ i, ContDiff ℝ 1 (φ i)) {M ρ t h : ℝ} (hM0 : 0 ≤ M) (hh : 0 ≤ h) (ht : 0 ≤ t) (x : E) :
    ∀ N : ℕ, (∀ i < N, ∀ q ∈ Metric.closedBall (0 : ℝ × E) ρ, ‖φ i q‖ ≤ M) → t + N * h ≤ ρ → ‖x‖ + M * (N * h) ≤ ρ → ∃ y : ℝ → E, Continuous y ∧ y t = x ∧
    (∀ i < N, ∀ s ∈ Icc (t + i * h) (t + (i + 1) * h), HasDerivWithinAt y (φ i (s, y s)) (Icc (t + i * h) (t + (i + 1) * h)) s) ∧
    ∀ s ∈ Icc t (t + N * h), ‖y s‖ ≤ ‖x‖ + M * (N * h)
  | 0, _, _, _ => ⟨fun _ => x, continuous_const, rfl, by simp, by simp⟩
  | N + 1, hM, htρ, hx => by
    push_cast at htρ hx
    have hN : 0 ≤ (N : ℝ) * h := by positivity
    have hMh : 0 ≤ M * h := by positivity
    obtain ⟨y, yc, y0, yd, yb⟩ := exists_forward hφ hM0 hh ht x N (fun i hi => hM i (by omega)) (by linarith) (by linarith)
    have hyN := yb (t + N * h) ⟨by linarith, le_rfl⟩
    have e : t + ((N : ℝ) + 1) * h - (t + N * h) = h := by ring
    obtain ⟨z, zc, ze, zd, zb⟩ := exists_stage (hφ N) hM0 (hM N (by omega)) (a := t + N * h) (b := t + (N + 1) * h) (e := t + N * h) ⟨le_rfl, by linarith⟩ (c := id) continuousOn_id
      (fun s hs => by rw [id, Real.norm_of_nonneg (by linarith [hs.1])]; linarith [hs.2]) (x := y (t + N * h)) (by rw [e]; linarith)
    rw [e] at zb
    obtain ⟨g1, g2⟩ := LinearOde.glue (y := y) (z := z) (e := t + N * h) ze.symm
    refine ⟨fun s => if s ≤ t + N * h then y s else z s, yc.if_le zc continuous_id continuous_const fun s hs => by rw [hs, ze], ?_, ?_, ?_⟩
    · rw [g1 _ (by linarith), y0]
    · intro i hi s hs
      rcases (Nat.lt_succ_iff.1 hi).eq_or_lt with rfl | hi
      · rw [g2 s hs.1]
        exact (zd s hs).congr (fun r hr => g2 r hr.1) (g2 s hs.1)
      · have hle : t + ((i : ℝ) + 1) * h ≤ t + N * h := by
          have : (i : ℝ) + 1 ≤ N := by exact_mod_cast hi
          nlinarith
        rw [g1 s (hs.2.trans hle)]
        exact (yd i hi s hs).congr (fun r hr => g1 r (hr.2.trans hle)) (g1 s (hs.2.trans hle))
    · intro s hs
      rw [Nat.cast_succ] at hs ⊢
      rcases le_total s (t + N * h) with hl | hl
      · rw [g1 s hl]
        linarith [yb s ⟨hs.1, hl⟩]
      · rw [g2 s hl]
        linarith [zb s ⟨hl, hs.2⟩]

/-- Backwards over `N` stages, along given continuous data. -/
theorem exists_backward {M ρ h : ℝ} (hM0 : 0 ≤ M) (hh : 0 ≤ h) (l : E) : ∀ (N : ℕ) (φ : ℕ → X × E → E) (c : ℕ → ℝ → X) (t : ℝ), (∀ i, ContDiff ℝ 1 (φ i)) → (∀ i, Continuous (c i)) →
    (∀ i < N, ∀ q ∈ Metric.closedBall (0 : X × E) ρ, ‖φ i q‖ ≤ M) → (∀ i < N, ∀ s ∈ Icc t (t + N * h), ‖c i s‖ ≤ ρ) → ‖l‖ + M * (N * h) ≤ ρ →
    ∃ z : ℝ → E, z (t + N * h) = l ∧
    (∀ i < N, ∀ s ∈ Icc (t + i * h) (t + (i + 1) * h), HasDerivWithinAt z (φ i (c i s, z s)) (Icc (t + i * h) (t + (i + 1) * h)) s) ∧
    ∀ s ∈ Icc t (t + N * h), ‖z s‖ ≤ ‖l‖ + M * (N * h)
  | 0, _, _, t, _, _, _, _, _ => ⟨fun _ => l, rfl, by simp, by simp⟩
  | N + 1, φ, c, t, hφ, hc, hM, hcb, hl => by
    have eN : t + h + N * h = t + ((N + 1 : ℕ) : ℝ) * h := by push_cast; ring
    have hN : 0 ≤ (N : ℝ) * h := by positivity
    have hMh : 0 ≤ M * h := by positivity
    push_cast at hl
    obtain ⟨z, z0, zd, zb⟩ := exists_backward hM0 hh l N (fun i => φ (i + 1)) (fun i => c (i + 1)) (t + h) (fun i => hφ _) (fun i => hc _) (fun i hi => hM _ (by omega))
      (fun i hi s hs => hcb _ (by omega) s ⟨by linarith [hs.1], by rw [← eN]; exact hs.2⟩) (by linarith)
    have hzN := zb (t + h) ⟨le_rfl, by linarith⟩
    have e : t + h - t = h := by ring
    obtain ⟨w, _, we, wd, wb⟩ := exists_stage (hφ 0) hM0 (hM 0 (by omega)) (a := t) (b := t + h) (e := t + h) ⟨by linarith, le_rfl⟩ (hc 0).continuousOn
      (fun s hs => hcb 0 (by omega) s ⟨hs.1, by rw [← eN]; linarith [hs.2]⟩) (x := z (t + h)) (by rw [e]; linarith)
    rw [e] at wb
    obtain ⟨g1, g2⟩ := LinearOde.glue (y := w) (z := z) (e := t + h) we
    refine ⟨fun s => if s ≤ t + h then w s else z s, ?_, ?_, ?_⟩
    · rw [g2 _ (by linarith), ← eN, z0]
    · intro i hi s hs
      rcases i with _ | i
      · rw [Nat.cast_zero, zero_mul, add_zero, zero_add, one_mul] at hs ⊢
        rw [g1 s hs.2]
        exact (wd s hs).congr (fun r hr => g1 r hr.2) (g1 s hs.2)
      · have e1 : t + ((i + 1 : ℕ) : ℝ) * h = t + h + i * h := by push_cast; ring
        have e2 : t + (((i + 1 : ℕ) : ℝ) + 1) * h = t + h + (i + 1) * h := by push_cast; ring
        rw [e1, e2] at hs ⊢
        have hi0 : 0 ≤ (i : ℝ) * h := by positivity
        rw [g2 s (by linarith [hs.1])]
        exact (zd i (by omega) s hs).congr (fun r hr => g2 r (by linarith [hr.1])) (g2 s (by linarith [hs.1]))
    · intro s hs
      rw [← eN] at hs
      rw [Nat.cast_succ]
      rcases le_total (t + h) s with hl' | hl'
      · rw [g2 s hl']
        linarith [zb s ⟨hl', hs.2⟩]
      · rw [g1 s hl']
        linarith [wb s ⟨hs.1, hl'⟩]

end Stage

theorem bounded_on_ball {V W : Type} [NormedAddCommGroup V] [NormedSpace ℝ V] [FiniteDimensional ℝ V] [NormedAddCommGroup W] {g : V → W} (hg : Continuous g) (r : ℝ) :
    ∃ M, 0 ≤ M ∧ ∀ q ∈ Metric.closedBall (0 : V) r, ‖g q‖ ≤ M := by
  have : ProperSpace V := FiniteDimensional.proper ℝ _
  obtain ⟨M, hM⟩ := (isCompact_closedBall (0 : V) r).exists_bound_of_continuousOn hg.continuousOn
  exact ⟨max M 0, le_max_right _ _, fun q hq => (hM q hq).trans (le_max_left _ _)⟩

/-- **C148**, existence: with continuously differentiable functions, for every bound `R` on time, state and inputs there are `δ > 0` and `R'` such that on horizons of duration at most `δ`
every plan, with any number of stages, has an exact continuous state and costate, bounded by `R'`. -/
theorem C148_extremal_exists (P : Problem n m ℝ) (hf : ContDiff ℝ 1 (joint P.stateEq)) (hF : ContDiff ℝ 1 (joint P.costateEq))
    (hφ : ContDiff ℝ 1 fun p : ℝ × Vec n ℝ => P.dphidx p.1 p.2) (R : ℝ) (hR : 0 ≤ R) :
    ∃ δ > 0, ∃ R' ≥ R, ∀ (N : ℕ) (t D : ℝ) (x : Vec n ℝ) (U : Fin N → Vec m ℝ), 0 < N → 0 ≤ D → D ≤ δ → 0 ≤ t → t ≤ R → ‖x‖ ≤ R → (∀ i, ‖U i‖ ≤ R) →
      ∃ y lam : ℝ → Vec n ℝ, y t = x ∧ Extremal P t D U y lam ∧ ∀ s ∈ Icc t (t + D), ‖y s‖ ≤ R' ∧ ‖lam s‖ ≤ R' := by
  obtain ⟨M1, hM1, hb1⟩ := bounded_on_ball hf.continuous (R + 1)
  obtain ⟨L, hL, hbL⟩ := bounded_on_ball hφ.continuous (R + 1)
  obtain ⟨M2, hM2, hb2⟩ := bounded_on_ball hF.continuous (R + 1 + L + 1)
  refine ⟨1 / (1 + M1 + M2), by positivity, R + 1 + L + 1, by linarith, fun N t D x U hN hD hDδ ht htR hx hU => ?_⟩
  rw [le_div_iff₀ (by positivity)] at hDδ
  have hD1 : D ≤ 1 := by nlinarith
  have hDM1 : M1 * D ≤ 1 := by nlinarith
  have hDM2 : M2 * D ≤ 1 := by nlinarith
  have hN' : (0 : ℝ) < N := by exact_mod_cast hN
  have hh : 0 ≤ D / N := by positivity
  have hND : (N : ℝ) * (D / N) = D := by field_simp
  have hc : ∀ i, ‖colAt U i‖ ≤ R := fun i => by
    unfold colAt
    split_ifs with hi
    · exact hU _
    · exact (norm_zero (E := Vec m ℝ)).le.trans hR
  obtain ⟨y, yc, y0, yd, yb⟩ := exists_forward (φ := fun i q => joint P.stateEq (q.1, q.2, colAt U i)) (fun i => hf.comp (by fun_prop)) (ρ := R + 1) hM1 hh ht x N
    (fun i _ q hq => hb1 _ (by
      rw [mem_closedBall_zero_iff] at hq ⊢
      exact max_le ((le_max_left _ _).trans hq) (max_le ((le_max_right _ _).trans hq) ((hc i).trans (by linarith)))))
    (by rw [hND]; linarith) (by rw [hND]; linarith)
  rw [hND] at yb
  have yB : ∀ s ∈ Icc t (t + D), ‖y s‖ ≤ R + 1 := fun s hs => (yb s hs).trans (by linarith)
  have tB : ∀ s ∈ Icc t (t + D), ‖s‖ ≤ R + 1 := fun s hs => by
    rw [Real.norm_of_nonneg (by linarith [hs.1])]
    linarith [hs.2]
  have hE : t + D ∈ Icc t (t + D) := ⟨by linarith, le_rfl⟩
  have lB : ‖P.dphidx (t + D) (y (t + D))‖ ≤ L := hbL (t + D, y (t + D)) (by
    rw [mem_closedBall_zero_iff]
    exact max_le (tB _ hE) (yB _ hE))
  obtain ⟨lam, l0, ld, lb⟩ := exists_backward (X := ℝ × Vec (n + m) ℝ) (ρ := R + 1 + L + 1) hM2 hh (P.dphidx (t + D) (y (t + D))) N
    (fun _ q => joint P.costateEq (q.1.1, q.2, q.1.2)) (fun i s => (s, Fin.append (y s) (colAt U i))) t (fun i => hF.comp (by fun_prop))
    (fun i => by
      refine continuous_id.prodMk (continuous_pi fun k => ?_)
      refine Fin.addCases (fun k => ?_) (fun k => ?_) k
      · simp only [Fin.append_left]
        exact (continuous_apply k).comp yc
      · simp only [Fin.append_right]
        exact continuous_const)
    (fun i _ q hq => hb2 _ (by
      rw [mem_closedBall_zero_iff] at hq ⊢
      exact max_le ((le_max_left _ _).trans ((le_max_left _ _).trans hq)) (max_le ((le_max_right _ _).trans hq) ((le_max_right _ _).trans ((le_max_left _ _).trans hq)))))
    (fun i _ s hs => by
      rw [hND] at hs
      exact max_le ((tB s hs).trans (by linarith)) (norm_append_le ((yB s hs).trans (by linarith)) ((hc i).trans (by linarith))))
    (by rw [hND]; linarith)
  rw [hND] at l0 lb
  exact ⟨y, lam, y0, ⟨yd, ld, l0⟩, fun s hs => ⟨(yB s hs).trans (by linarith), (lb s hs).trans (by linarith)⟩⟩

/-- **C148**, simulation on short horizons (the horizon grows from zero, so this covers the start of every simulation), without assumption on the continuous trajectories: whenever state and plan of
round `k` are bounded by `R` and the horizon of that round is at most `δ`, the exact continuous state and costate of the plan exist, and the gradient of the Hamiltonian along them is small. -/
theorem C148_short_horizon (P : Problem n m ℝ) (ode : Ode ℝ) (ho : ode.FirstOrder) (H a : ℝ) (hH0 : 0 ≤ H) (ha : 0 ≤ a)
    (hf : ContDiff ℝ 1 (joint P.stateEq)) (hF : ContDiff ℝ 1 (joint P.costateEq))
    (hφ : ContDiff ℝ 1 fun p : ℝ × Vec n ℝ => P.dphidx p.1 p.2)
    (hH : ContDiff ℝ 1 fun p : ℝ × Vec n ℝ × Vec m ℝ × Vec n ℝ => P.dhdu p.1 p.2.1 p.2.2.1 p.2.2.2) (R : ℝ) (hR : 0 ≤ R) :
    ∃ δ > 0, ∃ (C : ℝ) (N₀ : ℕ), ∀ (L : Gmres.Dense ℝ) (simOde : Ode ℝ) (cfg : Config ℝ), cfg.steadyHorizon = H → cfg.increaseRatio = a →
      (N₀ : ℤ) ≤ cfg.divideNum → 0 < cfg.divideNum → 0 < cfg.dt → cfg.dumpStep ≠ 0 → 0 ≤ cfg.kMax → cfg.delta ≠ 0 →
      ∃ (T : Trajectory L P ode simOde cfg cfg.divideNum.toNat) (s : _), run L P ode simOde cfg = .ok s ∧
        s.dump = ((List.range s.i).filter fun j : ℕ => cfg.dumpStep ∣ (j : ℤ)).map T.line ∧
        ∀ (k : ℕ) (ε : ℝ), (∀ j < k, T.defect j ≤ ε) →
          let t := k * cfg.dt
          let D := horizonDuration cfg t
          let h := D / cfg.divideNum.toNat
          let q := |1 - cfg.zeta * cfg.dt|
          D ≤ δ → t ≤ R → ‖T.x k‖ ≤ R → (∀ i, ‖(T.mem k).uList i‖ ≤ R) → (∃ y lam : ℝ → Vec n ℝ, y t = T.x k ∧ Extremal P t D (T.mem k).uList y lam) ∧
          ∀ y lam : ℝ → Vec n ℝ, y t = T.x k → Extremal P t D (T.mem k).uList y lam →
          ∀ i : Fin cfg.divideNum.toNat, ‖P.dhdu (t + (i : ℕ) * h) (y (t + (i : ℕ) * h)) ((T.mem k).uList i) (lam (t + (i : ℕ) * h))‖ ≤
            q ^ k * (T.line 0).err + cfg.dt * ε * ∑ j ∈ range k, q ^ j + C / cfg.divideNum.toNat := by
  obtain ⟨δ, hδ, R', hRR, hex⟩ := C148_extremal_exists P hf hF hφ R hR
  obtain ⟨C, N₀, hrun⟩ := C148_run P ode ho H a hH0 ha hf hF hφ hH R'
  refine ⟨δ, hδ, C, N₀, fun L simOde cfg h1 h2 h3 h4 h5 h6 h7 h8 => ?_⟩
  obtain ⟨T, s, hs, hd, hk⟩ := hrun L simOde cfg h1 h2 h3 h4 h5 h6 h7 h8
  refine ⟨T, s, hs, hd, fun k ε hε => ?_⟩
  intro t D h q hDδ ht hx hU
  have ht0 : 0 ≤ t := by positivity
  have he : Real.exp (-cfg.increaseRatio * t) ≤ 1 := Real.exp_le_one_iff.2 (by rw [h2]; nlinarith)
  have hD : D = H * (1 - Real.exp (-cfg.increaseRatio * t)) := by rw [← h1]; rfl
  have hD0 : 0 ≤ D := by rw [hD]; nlinarith
  have hN : 0 < cfg.divideNum.toNat := by omega
  obtain ⟨y, lam, y0, hy, hb⟩ := hex cfg.divideNum.toNat t D (T.x k) (T.mem k).uList hN hD0 hDδ ht0 ht hx hU
  refine ⟨⟨y, lam, y0, hy⟩, fun z mu z0 hz => hk k ε z mu hε (ht.trans hRR) (fun i => (hU i).trans hRR) z0 (fun s hs => ?_) hz⟩
  obtain ⟨e1, e2⟩ := C148_extremal_unique P hf hF hN hD0 hy hz (y0.trans z0.symm)
  rw [← e1 hs, ← e2 hs]
  exact hb s hs

/-- **C148**, start of every simulation: for every bound `R` there is a time `τ > 0`, the same for all numbers of stages, sampling times, dense solvers and simulation integrators, such that in all
rounds up to time `τ` whose state and plan are bounded by `R` the exact continuous state and costate of the plan exist, and the gradient of the Hamiltonian along them is small. -/
theorem C148_start (P : Problem n m ℝ) (ode : Ode ℝ) (ho : ode.FirstOrder) (H a : ℝ) (hH0 : 0 ≤ H) (ha : 0 ≤ a)
    (hf : ContDiff ℝ 1 (joint P.stateEq)) (hF : ContDiff ℝ 1 (joint P.costateEq))
    (hφ : ContDiff ℝ 1 fun p : ℝ × Vec n ℝ => P.dphidx p.1 p.2)
    (hH : ContDiff ℝ 1 fun p : ℝ × Vec n ℝ × Vec m ℝ × Vec n ℝ => P.dhdu p.1 p.2.1 p.2.2.1 p.2.2.2) (R : ℝ) :
    ∃ τ > 0, ∃ (C : ℝ) (N₀ : ℕ), ∀ (L : Gmres.Dense ℝ) (simOde : Ode ℝ) (cfg : Config ℝ), cfg.steadyHorizon = H → cfg.increaseRatio = a →
      (N₀ : ℤ) ≤ cfg.divideNum → 0 < cfg.divideNum → 0 < cfg.dt → cfg.dumpStep ≠ 0 → 0 ≤ cfg.kMax → cfg.delta ≠ 0 →
      ∃ (T : Trajectory L P ode simOde cfg cfg.divideNum.toNat) (s : _), run L P ode simOde cfg = .ok s ∧
        s.dump = ((List.range s.i).filter fun j : ℕ => cfg.dumpStep ∣ (j : ℤ)).map T.line ∧
        ∀ (k : ℕ) (ε : ℝ), (∀ j < k, T.defect j ≤ ε) →
          let t := k * cfg.dt
          let D := horizonDuration cfg t
          let h := D / cfg.divideNum.toNat
          let q := |1 - cfg.zeta * cfg.dt|
          t ≤ τ → ‖T.x k‖ ≤ R → (∀ i, ‖(T.mem k).uList i‖ ≤ R) → (∃ y lam : ℝ → Vec n ℝ, y t = T.x k ∧ Extremal P t D (T.mem k).uList y lam) ∧
          ∀ y lam : ℝ → Vec n ℝ, y t = T.x k → Extremal P t D (T.mem k).uList y lam →
          ∀ i : Fin cfg.divideNum.toNat, ‖P.dhdu (t + (i : ℕ) * h) (y (t + (i : ℕ) * h)) ((T.mem k).uList i) (lam (t + (i : ℕ) * h))‖ ≤
            q ^ k * (T.line 0).err + cfg.dt * ε * ∑ j ∈ range k, q ^ j + C / cfg.divideNum.toNat := by
  obtain ⟨δ, hδ, C, N₀, hrun⟩ := C148_short_horizon P ode ho H a hH0 ha hf hF hφ hH (max R 1) (by positivity)
  refine ⟨min 1 (δ / (H * a + 1)), by positivity, C, N₀, fun L simOde cfg h1 h2 h3 h4 h5 h6 h7 h8 => ?_⟩
  obtain ⟨T, s, hs, hd, hk⟩ := hrun L simOde cfg h1 h2 h3 h4 h5 h6 h7 h8
  refine ⟨T, s, hs, hd, fun k ε hε => ?_⟩
  intro t D h q ht hx hU
  have ht0 : 0 ≤ t := by positivity
  refine hk k ε hε ?_ ((ht.trans (min_le_left _ _)).trans (le_max_right _ _)) (hx.trans (le_max_left _ _)) fun i => (hU i).trans (le_max_left _ _)
  have h9 : t * (H * a + 1) ≤ δ := (le_div_iff₀ (by positivity)).1 (ht.trans (min_le_right _ _))
  have hD : horizonDuration cfg (k * cfg.dt) = H * (1 - Real.exp (-a * t)) := by rw [← h1, ← h2]; rfl
  have he := Real.add_one_le_exp (-a * t)
  rw [hD]
  have h10 : H * (1 - Real.exp (-a * t)) ≤ H * (a * t) := mul_le_mul_of_nonneg_left (by linarith) hH0
  nlinarith

end Nmpc.Cgmres
