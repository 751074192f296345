import Verif.CGMRES.Breakdown
import Verif.CGMRES.GmresExamples

/-!
# C133: exactly when GMRES divides by zero (exact arithmetic, both modes)
-/

namespace Nmpc.Gmres

open Matrix

variable {n : ℕ} (L : Dense ℝ) (cfg : Config ℝ) (b x : Vec n ℝ)

/-- **C133** After `k` iterations there was no division by zero exactly if `M r, M² r, …, M^k r` are linearly independent, where `r` is the
initial residual. -/
theorem C133_independent (hL : L.Exact) (M : Mat n n ℝ) {r : Out n ℝ} (h : solveMat L cfg M b x = .ok r) :
    NoBreakdown cfg r ↔ LinearIndependent ℝ (fun i : Fin r.k => M ^ ((i : ℕ) + 1) *ᵥ (b - M *ᵥ x)) := by
  have h' : solve L cfg (M *ᵥ ·) b x = .ok r := h
  rw [← fullRank_indep L cfg b x M, ← fine_iff L cfg _ b x hL]
  exact ⟨fine_of_noBreakdown L cfg _ b x h', noBreakdown_of_fine L cfg _ b x h'⟩

/-- **C133** With the limit `K = min(k_max, n)` on the iterations there is no division by zero exactly if `M r, …, M^K r` are linearly
independent or some point of `x + span {r, …, M^(K-1) r}` satisfies the tolerance. -/
theorem C133_limit (hL : L.Exact) (M : Mat n n ℝ) {r : Out n ℝ} (h : solveMat L cfg M b x = .ok r) :
    NoBreakdown cfg r ↔
      LinearIndependent ℝ (fun i : Fin (min cfg.kMax n).toNat => M ^ ((i : ℕ) + 1) *ᵥ (b - M *ᵥ x)) ∨
      ∃ z, z - x ∈ krylov M (b - M *ᵥ x) (min cfg.kMax n).toNat ∧ norm2 (b - M *ᵥ z) ≤ cfg.eps * norm2 b := by
  have h' : solve L cfg (M *ᵥ ·) b x = .ok r := h
  obtain ⟨h0, hs, hr⟩ := solve_ok L cfg (M *ᵥ ·) b x h'
  have hx : r.x = (finish L cfg x (S L cfg (M *ᵥ ·) b x r.k)).x := by nth_rewrite 1 [hr]; rfl
  constructor
  · intro hb
    rcases hs.stop with h1 | h1
    · left
      rw [← h1]
      exact (C133_independent L cfg b x hL M h).mp hb
    · right
      refine ⟨r.x, krylov_mono M _ hs.le (C47_krylov L cfg b x hL M h hb).1, ?_⟩
      rw [hx, ← rho_eq L cfg b x M hL fun _ => fine_of_noBreakdown L cfg _ b x h' hb, ← vnorm_norm2]
      simpa using h1
  · intro hor
    rw [C133_independent L cfg b x hL M h]
    rcases hor with hi | ⟨z, hz, hle⟩
    · exact (fullRank_indep L cfg b x M _).mp (((fullRank_indep L cfg b x M _).mpr hi).mono L cfg _ b x hs.le)
    · by_contra hn
      -- the first round that broke down
      obtain ⟨j, hjk, hj1, hj2⟩ : ∃ j < r.k, LinearIndependent ℝ (fun i : Fin j => M ^ ((i : ℕ) + 1) *ᵥ (b - M *ᵥ x)) ∧
          ¬LinearIndependent ℝ (fun i : Fin (j + 1) => M ^ ((i : ℕ) + 1) *ᵥ (b - M *ᵥ x)) := by
        by_contra hno
        push Not at hno
        refine hn ?_
        have : ∀ j ≤ r.k, LinearIndependent ℝ (fun i : Fin j => M ^ ((i : ℕ) + 1) *ᵥ (b - M *ᵥ x)) := by
          intro j
          induction j with
          | zero => intro _; exact linearIndependent_empty_type
          | succ j ih => intro hj; exact hno j (by omega) (ih (by omega))
        exact this r.k le_rfl
      have hf := (fine_iff L cfg (M *ᵥ ·) b x hL j).mpr ((fullRank_indep L cfg b x M j).mpr hj1)
      obtain ⟨w, hw, he⟩ := krylov_image M hj1 hj2 hz
      have hmin : (S L cfg (M *ᵥ ·) b x j).rho ≤ norm2 (b - M *ᵥ z) := by
        rw [← span_V_krylov L cfg b x M j, mem_span_V] at hw
        obtain ⟨y, rfl⟩ := hw
        rw [← vnorm_norm2]
        refine abs_le_of_sq_le_sq' ?_ (vnorm_nonneg _) |>.2
        refine (rho_min L cfg (M *ᵥ ·) b x hL hf y).trans (le_of_eq ?_)
        rw [← resid_sq, mulVec_add, he, ← mulVec_add, add_sub_cancel]
      have hc := hs.cont j hjk
      simp only [ltb_real] at hc
      rw [vnorm_norm2] at hc
      linarith

/-- **C133** When the number of iterations is not limited (`k_max ≥ n`) there is no division by zero exactly if the tolerance can be
satisfied in the Krylov space of the initial residual. -/
theorem C133_iff (hL : L.Exact) (M : Mat n n ℝ) (he : 0 ≤ cfg.eps) (hk : (n : ℤ) ≤ cfg.kMax) {r : Out n ℝ}
    (h : solveMat L cfg M b x = .ok r) :
    NoBreakdown cfg r ↔ ∃ z, z - x ∈ krylov M (b - M *ᵥ x) n ∧ norm2 (b - M *ᵥ z) ≤ cfg.eps * norm2 b := by
  rw [C133_limit L cfg b x hL M h, show (min cfg.kMax (n : ℤ)).toNat = n by omega]
  refine ⟨fun hor => hor.elim (fun hi => ?_) id, Or.inr⟩
  -- n independent vectors: `b` minus the image of `x` is in the image of the Krylov space
  have hspan := hi.span_eq_top_of_card_eq_finrank' (by simp)
  have hr : b - M *ᵥ x ∈ Submodule.span ℝ (Set.range fun i : Fin n => M ^ ((i : ℕ) + 1) *ᵥ (b - M *ᵥ x)) := by
    rw [hspan]; trivial
  obtain ⟨c, hc⟩ := (Submodule.mem_span_range_iff_exists_fun ℝ).mp hr
  refine ⟨x + ∑ i, c i • (M ^ (i : ℕ) *ᵥ (b - M *ᵥ x)), ?_, ?_⟩
  · rw [add_sub_cancel_left]; exact (krylov_exists M).mpr ⟨c, rfl⟩
  · rw [mulVec_add, mul_comb, hc, add_sub_cancel, sub_self]
    have : norm2 (0 : Vec n ℝ) = 0 := by simp [norm2]
    rw [this]
    exact mul_nonneg he (by rw [← vnorm_norm2]; exact vnorm_nonneg b)

/-- **C133** If no point at all satisfies the tolerance (inconsistent systems) and `k_max ≥ n`, then `solve` divides by zero. -/
theorem C133_inconsistent (hL : L.Exact) (M : Mat n n ℝ) (he : 0 ≤ cfg.eps) (hk : (n : ℤ) ≤ cfg.kMax) {r : Out n ℝ}
    (h : solveMat L cfg M b x = .ok r) (hinc : ∀ z, cfg.eps * norm2 b < norm2 (b - M *ᵥ z)) : ¬NoBreakdown cfg r := by
  rw [C133_iff L cfg b x hL M he hk h]
  rintro ⟨z, _, hz⟩
  exact absurd hz (not_le.mpr (hinc z))

/-- If the range and the kernel meet only in 0, consistent systems are solved in the Krylov space. -/
theorem index_one_solves {M : Mat n n ℝ} (hM : ∀ v, M *ᵥ (M *ᵥ v) = 0 → M *ᵥ v = 0) (hb : ∃ z, M *ᵥ z = b) {K : ℕ}
    (hK : ¬LinearIndependent ℝ (fun i : Fin K => M ^ ((i : ℕ) + 1) *ᵥ (b - M *ᵥ x))) :
    ∃ z, z - x ∈ krylov M (b - M *ᵥ x) K ∧ M *ᵥ z = b := by
  obtain ⟨z0, hz0⟩ := hb
  obtain ⟨y0, hy0⟩ : ∃ y0, M *ᵥ y0 = b - M *ᵥ x := ⟨z0 - x, by rw [mulVec_sub, hz0]⟩
  obtain ⟨j, hjk, hj1, hj2⟩ : ∃ j < K, LinearIndependent ℝ (fun i : Fin j => M ^ ((i : ℕ) + 1) *ᵥ (b - M *ᵥ x)) ∧
      ¬LinearIndependent ℝ (fun i : Fin (j + 1) => M ^ ((i : ℕ) + 1) *ᵥ (b - M *ᵥ x)) := by
    by_contra hno
    push Not at hno
    refine hK ?_
    have : ∀ j ≤ K, LinearIndependent ℝ (fun i : Fin j => M ^ ((i : ℕ) + 1) *ᵥ (b - M *ᵥ x)) := by
      intro j
      induction j with
      | zero => intro _; exact linearIndependent_empty_type
      | succ j ih => intro hj; exact hno j (by omega) (ih (by omega))
    exact this K le_rfl
  have hrange : ∀ v ∈ krylov M (b - M *ᵥ x) (j + 1), ∃ w, M *ᵥ w = v := by
    intro v hv
    obtain ⟨c, rfl⟩ := (krylov_exists M).mp hv
    refine ⟨∑ i, c i • (M ^ (i : ℕ) *ᵥ y0), ?_⟩
    rw [mul_comb]
    refine Finset.sum_congr rfl fun i _ => ?_
    rw [pow_succ, ← mulVec_mulVec, hy0]
  have hdep : ¬LinearIndependent ℝ (fun i : Fin (j + 1) => M ^ (i : ℕ) *ᵥ (b - M *ᵥ x)) := fun hi =>
    hj2 ((indep_shift M).mpr ⟨hi, fun v hv h0 => by
      obtain ⟨w, rfl⟩ := hrange v hv
      exact hM w h0⟩)
  have hmem : b - M *ᵥ x ∈ Submodule.span ℝ (Set.range fun i : Fin j => M ^ ((i : ℕ) + 1) *ᵥ (b - M *ᵥ x)) := by
    by_contra hn
    refine hdep ?_
    rw [linearIndependent_finSucc]
    refine ⟨?_, ?_⟩
    · exact hj1
    · rw [Fin.val_zero, pow_zero, one_mulVec]
      exact hn
  obtain ⟨c, hc⟩ := (Submodule.mem_span_range_iff_exists_fun ℝ).mp hmem
  refine ⟨x + ∑ i, c i • (M ^ (i : ℕ) *ᵥ (b - M *ᵥ x)), ?_, ?_⟩
  · rw [add_sub_cancel_left]; exact krylov_mono M _ hjk.le ((krylov_exists M).mpr ⟨c, rfl⟩)
  · rw [mulVec_add, mul_comb, hc, add_sub_cancel]

/-- **C133** A matrix for which no consistent system leads to a division by zero is one whose range and kernel meet only in 0 (in particular
every symmetric and every invertible matrix). -/
theorem C133_matrix (hL : L.Exact) (M : Mat n n ℝ) (he : 0 ≤ cfg.eps) (he1 : cfg.eps < 1) (hk : 1 ≤ cfg.kMax) :
    (∀ b x r, (∃ z, M *ᵥ z = b) → solveMat L cfg M b x = .ok r → NoBreakdown cfg r) ↔
      ∀ v, M *ᵥ (M *ᵥ v) = 0 → M *ᵥ v = 0 := by
  constructor
  · intro h v hv
    by_contra hne
    obtain ⟨r, hr⟩ := (C46_total L cfg (M *ᵥ ·) (M *ᵥ v) 0).2 (by omega)
    have hr' : solveMat L cfg M (M *ᵥ v) 0 = .ok r := hr
    have hb := h (M *ᵥ v) 0 r ⟨v, rfl⟩ hr'
    rw [C133_limit L cfg _ _ hL M hr'] at hb
    rw [mulVec_zero, sub_zero] at hb
    have hn : 1 ≤ n := by
      rcases Nat.eq_zero_or_pos n with rfl | h0
      · exact absurd (funext fun i => i.elim0) hne
      · exact h0
    rcases hb with hi | ⟨z, hz, hle⟩
    · refine hi.ne_zero ⟨0, by omega⟩ ?_
      simpa using hv
    · have hMz : M *ᵥ z = 0 := by
        obtain ⟨c, hc⟩ := (krylov_exists M).mp hz
        rw [sub_zero] at hc
        rw [← hc, mul_comb]
        exact Finset.sum_eq_zero fun i _ => by rw [pow_succ, ← mulVec_mulVec, hv, mulVec_zero, smul_zero]
      rw [hMz, sub_zero] at hle
      have hpos : 0 < norm2 (M *ᵥ v) := by
        rw [← vnorm_norm2]
        exact lt_of_le_of_ne (vnorm_nonneg _) fun h0 => hne (vnorm_eq_zero.mp h0.symm)
      nlinarith
  · intro hM b x r hb h
    rw [C133_limit L cfg b x hL M h]
    by_cases hi : LinearIndependent ℝ (fun i : Fin (min cfg.kMax (n : ℤ)).toNat => M ^ ((i : ℕ) + 1) *ᵥ (b - M *ᵥ x))
    · exact Or.inl hi
    · obtain ⟨z, hz, hzb⟩ := index_one_solves b x hM hb hi
      refine Or.inr ⟨z, hz, ?_⟩
      rw [hzb, sub_self, show norm2 (0 : Vec n ℝ) = 0 by simp [norm2]]
      exact mul_nonneg he (by rw [← vnorm_norm2]; exact vnorm_nonneg b)

/-- **C133** (symmetric matrices) No consistent system with a symmetric matrix, singular or not, leads to a division by zero. -/
theorem C133_symmetric (hL : L.Exact) (M : Mat n n ℝ) (hM : Mᵀ = M) (he : 0 ≤ cfg.eps) (hc : ∃ z, M *ᵥ z = b) {r : Out n ℝ}
    (h : solveMat L cfg M b x = .ok r) : NoBreakdown cfg r := by
  rw [C133_limit L cfg b x hL M h]
  by_cases hi : LinearIndependent ℝ (fun i : Fin (min cfg.kMax (n : ℤ)).toNat => M ^ ((i : ℕ) + 1) *ᵥ (b - M *ᵥ x))
  · exact Or.inl hi
  · obtain ⟨z, hz, hzb⟩ := index_one_solves b x (M := M) (fun v hv => by
      rw [← dot_self_eq_zero', dotProduct_mulVec, ← mulVec_transpose, hM, hv, zero_dotProduct]) hc hi
    refine Or.inr ⟨z, hz, ?_⟩
    rw [hzb, sub_self, show norm2 (0 : Vec n ℝ) = 0 by simp [norm2]]
    exact mul_nonneg he (by rw [← vnorm_norm2]; exact vnorm_nonneg b)

/-! ## Examples -/

/-- A singular symmetric matrix: no division by zero for the consistent right-hand side `(1, 0)`, but one for `(1, 1)` (both modes). -/
example (tri : Bool) : (∃ r, solveMat realDense (exCfg tri) !![1, 0; 0, 0] ![1, 0] 0 = .ok r ∧ NoBreakdown (exCfg tri) r) ∧
    ∃ r, solveMat realDense (exCfg tri) !![1, 0; 0, 0] ![1, 1] 0 = .ok r ∧ ¬NoBreakdown (exCfg tri) r := by
  constructor
  · obtain ⟨r, hr⟩ := (C46_total realDense (exCfg tri) (!![1, 0; 0, 0] *ᵥ ·) ![1, 0] 0).2 (by simp [exCfg])
    refine ⟨r, hr, C133_symmetric realDense (exCfg tri) _ _ realDense_exact _ ?_ (by simp [exCfg]) ⟨![1, 0], ?_⟩ hr⟩
    · ext i j; fin_cases i <;> fin_cases j <;> rfl
    · ext i; fin_cases i <;> simp
  · obtain ⟨r, hr⟩ := (C46_total realDense (exCfg tri) (!![1, 0; 0, 0] *ᵥ ·) ![1, 1] 0).2 (by simp [exCfg])
    refine ⟨r, hr, C133_inconsistent realDense (exCfg tri) _ _ realDense_exact _ (by simp [exCfg]) (by simp [exCfg]) hr fun z => ?_⟩
    rw [show (exCfg tri).eps = 0 from rfl, zero_mul, ← vnorm_norm2]
    refine lt_of_le_of_ne (vnorm_nonneg _) fun h0 => ?_
    have := congrFun (vnorm_eq_zero.mp h0.symm) 1
    simp at this

/-- A nilpotent matrix: its range and kernel coincide, so some consistent system leads to a division by zero. -/
example : ¬∀ b x r, (∃ z, !![(0 : ℝ), 1; 0, 0] *ᵥ z = b) → solveMat realDense (exCfg true) !![0, 1; 0, 0] b x = .ok r →
    NoBreakdown (exCfg true) r := by
  rw [C133_matrix realDense (exCfg true) realDense_exact _ (by simp [exCfg]) (by simp [exCfg]) (by simp [exCfg])]
  intro h
  have := congrFun (h ![0, 1] (by ext i; fin_cases i <;> simp [mulVec, dotProduct, Fin.sum_univ_two])) 0
  simp [mulVec, dotProduct, Fin.sum_univ_two] at this

end Nmpc.Gmres
