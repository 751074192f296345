import Mathlib.Analysis.ODE.ExistUnique
import Verif.CGMRES.Pontryagin

/-!
# C148: the continuous state and costate that belong to a plan are unique
-/

namespace Nmpc.Cgmres

open Set

variable {n m : ℕ}

section Stage

variable {X E : Type} [NormedAddCommGroup X] [NormedSpace ℝ X] [FiniteDimensional ℝ X] [NormedAddCommGroup E] [NormedSpace ℝ E] [FiniteDimensional ℝ E]

/-- On a bounded set a continuously differentiable function is Lipschitz continuous. -/
theorem lipschitz_ball {φ : X × E → E} (hφ : ContDiff ℝ 1 φ) (r : ℝ) : ∃ K, LipschitzOnWith K φ (Metric.closedBall 0 r) := by
  have : ProperSpace (X × E) := FiniteDimensional.proper ℝ _
  obtain ⟨K, hK⟩ := (isCompact_closedBall (0 : X × E) r).exists_bound_of_continuousOn (hφ.continuous_fderiv one_ne_zero).continuousOn
  refine ⟨K.toNNReal, (convex_closedBall (0 : X × E) r).lipschitzOnWith_of_nnnorm_fderiv_le (fun x _ => (hφ.differentiable one_ne_zero) x) fun x hx => ?_⟩
  exact NNReal.le_toNNReal_of_coe_le (hK x hx)

/-- One stage, from the left and from the right. -/
theorem unique_stage {φ : X × E → E} (hφ : ContDiff ℝ 1 φ) {a b : ℝ} {c : ℝ → X} (hc : ContinuousOn c (Icc a b)) {f g : ℝ → E}
    (hf : ∀ s ∈ Icc a b, HasDerivWithinAt f (φ (c s, f s)) (Icc a b) s) (hg : ∀ s ∈ Icc a b, HasDerivWithinAt g (φ (c s, g s)) (Icc a b) s) :
    (f a = g a → EqOn f g (Icc a b)) ∧ (f b = g b → EqOn f g (Icc a b)) := by
  have fc : ContinuousOn f (Icc a b) := fun s hs => (hf s hs).continuousWithinAt
  have gc : ContinuousOn g (Icc a b) := fun s hs => (hg s hs).continuousWithinAt
  obtain ⟨rc, hrc⟩ := isCompact_Icc.exists_bound_of_continuousOn hc
  obtain ⟨rf, hrf⟩ := isCompact_Icc.exists_bound_of_continuousOn fc
  obtain ⟨rg, hrg⟩ := isCompact_Icc.exists_bound_of_continuousOn gc
  obtain ⟨K, hK⟩ := lipschitz_ball hφ (max rc (max rf rg))
  have hv : ∀ s ∈ Icc a b, LipschitzOnWith K (fun x => φ (c s, x)) (Metric.closedBall 0 (max rf rg)) := by
    intro s hs x hx x' hx'
    have hb : ∀ x ∈ Metric.closedBall (0 : E) (max rf rg), (c s, x) ∈ Metric.closedBall (0 : X × E) (max rc (max rf rg)) := by
      intro x hx
      rw [mem_closedBall_zero_iff] at hx ⊢
      exact max_le_max (hrc s hs) hx
    refine (hK (hb x hx) (hb x' hx')).trans (le_of_eq ?_)
    rw [Prod.edist_eq]
    simp
  have hfs : ∀ s ∈ Icc a b, f s ∈ Metric.closedBall (0 : E) (max rf rg) := fun s hs => by
    rw [mem_closedBall_zero_iff]; exact (hrf s hs).trans (le_max_left _ _)
  have hgs : ∀ s ∈ Icc a b, g s ∈ Metric.closedBall (0 : E) (max rf rg) := fun s hs => by
    rw [mem_closedBall_zero_iff]; exact (hrg s hs).trans (le_max_right _ _)
  constructor
  · intro h0
    exact ODE_solution_unique_of_mem_Icc_right (v := fun s x => φ (c s, x)) (s := fun _ => Metric.closedBall 0 (max rf rg)) (fun s hs => hv s (Ico_subset_Icc_self hs)) fc
      (fun s hs => (hf s (Ico_subset_Icc_self hs)).mono_of_mem_nhdsWithin (Icc_mem_nhdsGE_of_mem hs)) (fun s hs => hfs s (Ico_subset_Icc_self hs)) gc
      (fun s hs => (hg s (Ico_subset_Icc_self hs)).mono_of_mem_nhdsWithin (Icc_mem_nhdsGE_of_mem hs)) (fun s hs => hgs s (Ico_subset_Icc_self hs)) h0
  · intro h0
    exact ODE_solution_unique_of_mem_Icc_left (v := fun s x => φ (c s, x)) (s := fun _ => Metric.closedBall 0 (max rf rg)) (fun s hs => hv s (Ioc_subset_Icc_self hs)) fc
      (fun s hs => (hf s (Ioc_subset_Icc_self hs)).mono_of_mem_nhdsWithin (Icc_mem_nhdsLE_of_mem hs)) (fun s hs => hfs s (Ioc_subset_Icc_self hs)) gc
      (fun s hs => (hg s (Ioc_subset_Icc_self hs)).mono_of_mem_nhdsWithin (Icc_mem_nhdsLE_of_mem hs)) (fun s hs => hgs s (Ioc_subset_Icc_self hs)) h0

end Stage

theorem Held.unique {f : StateEq n m ℝ} (hf : ContDiff ℝ 1 (joint f)) {t h : ℝ} (hh : 0 ≤ h) {U : ℕ → Vec m ℝ} {y z : ℝ → Vec n ℝ} (h0 : y t = z t) :
    ∀ N : ℕ, Held f N t h U y → Held f N t h U z → EqOn y z (Icc t (t + N * h))
  | 0, _, _ => fun s hs => by
    have : s = t := le_antisymm (by simpa using hs.2) hs.1
    rw [this, h0]
  | N + 1, hy, hz => by
    have ih := Held.unique hf hh h0 N (fun i hi => hy i (by omega)) fun i hi => hz i (by omega)
    have hN : 0 ≤ (N : ℝ) * h := by positivity
    have hφ : ContDiff ℝ 1 fun q : ℝ × Vec n ℝ => joint f (q.1, q.2, U N) := hf.comp (by fun_prop)
    have h1 := (unique_stage hφ (c := id) continuousOn_id (hy N (by omega)) (hz N (by omega))).1 (ih ⟨by linarith, le_rfl⟩)
    intro s hs
    rcases le_total s (t + N * h) with hl | hl
    · exact ih ⟨hs.1, hl⟩
    · exact h1 ⟨hl, by have := hs.2; push_cast at this; exact this⟩

theorem CoHeld.unique {F : StateEq n (n + m) ℝ} (hF : ContDiff ℝ 1 (joint F)) {N : ℕ} {t h : ℝ} (hh : 0 ≤ h) {U : ℕ → Vec m ℝ} {y lam mu : ℝ → Vec n ℝ}
    (hy : ∀ i < N, ContinuousOn y (Icc (t + i * h) (t + (i + 1) * h))) (hl : CoHeld F N t h U y lam) (hm : CoHeld F N t h U y mu)
    (hE : lam (t + N * h) = mu (t + N * h)) : ∀ j i : ℕ, i + j = N → EqOn lam mu (Icc (t + i * h) (t + N * h))
  | 0, i, hi => fun s hs => by
    obtain rfl : i = N := by omega
    rw [le_antisymm hs.2 hs.1, hE]
  | j + 1, i, hi => by
    have ih := CoHeld.unique hF hh hy hl hm hE j (i + 1) (by omega)
    have hiN : ((i + 1 : ℕ) : ℝ) * h ≤ N * h := mul_le_mul_of_nonneg_right (by exact_mod_cast (by omega : i + 1 ≤ N)) hh
    push_cast at ih hiN
    have hφ : ContDiff ℝ 1 fun q : (ℝ × Vec (n + m) ℝ) × Vec n ℝ => joint F (q.1.1, q.2, q.1.2) := hF.comp (by fun_prop)
    have hc : ContinuousOn (fun s => ((s, Fin.append (y s) (U i)) : ℝ × Vec (n + m) ℝ)) (Icc (t + i * h) (t + (i + 1) * h)) := by
      refine continuousOn_id.prodMk (continuousOn_pi.2 fun k => ?_)
      refine Fin.addCases (fun k => ?_) (fun k => ?_) k
      · simp only [Fin.append_left]
        exact (continuous_apply k).comp_continuousOn (hy i (by omega))
      · simp only [Fin.append_right]
        exact continuousOn_const
    have h1 := (unique_stage hφ hc (hl i (by omega)) (hm i (by omega))).2 (ih ⟨le_rfl, by linarith⟩)
    intro s hs
    rcases le_total s (t + (i + 1) * h) with hs' | hs'
    · exact h1 ⟨hs.1, hs'⟩
    · exact ih ⟨hs', hs.2⟩

/-- **C148**, uniqueness: with continuously differentiable functions, the exact continuous state and costate of a plan are determined by the state at the start. -/
theorem C148_extremal_unique (P : Problem n m ℝ) (hf : ContDiff ℝ 1 (joint P.stateEq)) (hF : ContDiff ℝ 1 (joint P.costateEq)) {N : ℕ} (hN : 0 < N) {t D : ℝ} (hD : 0 ≤ D)
    {U : Fin N → Vec m ℝ} {y lam z mu : ℝ → Vec n ℝ} (h1 : Extremal P t D U y lam) (h2 : Extremal P t D U z mu) (h0 : y t = z t) :
    EqOn y z (Icc t (t + D)) ∧ EqOn lam mu (Icc t (t + D)) := by
  have hN' : (0 : ℝ) < N := by exact_mod_cast hN
  have hh : 0 ≤ D / N := by positivity
  have hND : (N : ℝ) * (D / N) = D := by field_simp
  have hyz := Held.unique hf hh h0 N h1.state h2.state
  have hend := h1.terminal
  rw [hyz (by rw [hND]; exact ⟨by linarith, le_rfl⟩), ← h2.terminal] at hend
  have hm : CoHeld P.costateEq N t (D / N) (colAt U) y mu := fun i hi s hs => by
    have hs' : s ∈ Icc t (t + N * (D / N)) := by
      have e1 : 0 ≤ (i : ℝ) * (D / N) := by positivity
      have e2 : ((i : ℝ) + 1) * (D / N) ≤ N * (D / N) := mul_le_mul_of_nonneg_right (by exact_mod_cast hi) hh
      exact ⟨by linarith [hs.1], by linarith [hs.2]⟩
    rw [hyz hs']
    exact h2.costate i hi s hs
  have := CoHeld.unique hF hh (fun i hi s hs => (h1.state i hi s hs).continuousWithinAt) h1.costate hm (by rw [hND]; exact hend) N 0 (by omega)
  rw [hND] at hyz this
  refine ⟨hyz, ?_⟩
  simpa using this

end Nmpc.Cgmres
