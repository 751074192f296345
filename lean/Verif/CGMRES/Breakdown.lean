import Verif.CGMRES.GmresProps
import Mathlib.LinearAlgebra.Dimension.OrzechProperty
import Mathlib.LinearAlgebra.LinearIndependent.Lemmas

/-!
# Helper lemmas for C133: when GMRES divides by zero
-/

set_option linter.unusedSectionVars false

namespace Nmpc.Gmres

open Matrix

variable {n : ℕ}
variable (L : Dense ℝ) (cfg : Config ℝ) (A : Vec n ℝ → Vec n ℝ) (b x : Vec n ℝ)

/-- The Arnoldi matrix has full column rank. -/
def FullRank (k : ℕ) : Prop := ∀ y, hblock L cfg A b x k *ᵥ y = 0 → y = 0

theorem FullRank.mono {k m : ℕ} (h : FullRank L cfg A b x m) (hk : k ≤ m) : FullRank L cfg A b x k := by
  intro y hy
  have := h (fun i => ofVec y i) (by
    funext i
    rw [hblock_mulVec]
    have e : ∀ j ∈ Finset.range m, hes L cfg A b x i j * ofVec (fun i : Fin m => ofVec y i) j =
        hes L cfg A b x i j * ofVec y j := by
      intro j hj
      congr 1
      simp at hj
      simp [ofVec, hj]
    rw [Finset.sum_congr rfl e, ← Finset.sum_subset (s₁ := Finset.range k)
      (by intro j; simp; omega) (by intro j _ hj; simp at hj; simp [ofVec, show ¬ j < k by omega])]
    by_cases hi : (i : ℕ) < k + 1
    · have := congrFun hy ⟨i, hi⟩
      rw [hblock_mulVec] at this; exact this
    · refine Finset.sum_eq_zero fun j hj => ?_
      rw [hes_gt L cfg A b x (by simp at hj; omega), zero_mul])
  funext i
  have h' := congrFun this ⟨i, by omega⟩
  simpa [ofVec] using h'

/-- Nonzero pivots give full rank. -/
theorem fullRank_of_piv (hL : L.Exact) (ht : cfg.makeTriangular = true) {k : ℕ} (hp : ∀ j < k, piv L cfg A b x j ≠ 0) :
    FullRank L cfg A b x k := by
  intro y hy
  have hrc : ∀ t : ℝ, ∀ i ∈ Finset.range (k + 1), rc L cfg A b x k (fun j => t * ofVec y j) i ^ 2 = e0 A b x i ^ 2 := by
    intro t i hi
    have := congrFun hy ⟨i, by simpa using hi⟩
    rw [hblock_mulVec] at this
    unfold rc
    rw [Finset.sum_congr rfl (g := fun j => t * (hes L cfg A b x i j * ofVec y j)) (fun j _ => by ring), ← Finset.mul_sum]
    rw [show ∑ j ∈ Finset.range k, hes L cfg A b x i j * ofVec y j = 0 from this]
    ring
  have hR : ∀ t : ℝ, ∑ i ∈ Finset.range k, ((S L cfg A b x k).g i -
      ∑ j ∈ Finset.range k, (S L cfg A b x k).H i j * (t * ofVec y j)) ^ 2 + (S L cfg A b x k).rho ^ 2 =
      ∑ i ∈ Finset.range (k + 1), e0 A b x i ^ 2 := by
    intro t
    rw [← rc_rots L cfg A b x ht hp]
    exact Finset.sum_congr rfl (hrc t)
  have e : ∀ (t : ℝ) (i : ℕ), ∑ j ∈ Finset.range k, (S L cfg A b x k).H i j * (t * ofVec y j) =
      t * ∑ j ∈ Finset.range k, (S L cfg A b x k).H i j * ofVec y j := by
    intro t i; rw [Finset.mul_sum]; exact Finset.sum_congr rfl fun j _ => by ring
  simp only [e] at hR
  have h0 := hR 0
  have h1 := hR 1
  have h2 := hR (-1)
  have hs : ∑ i ∈ Finset.range k, (∑ j ∈ Finset.range k, (S L cfg A b x k).H i j * ofVec y j) ^ 2 = 0 := by
    have : ∑ i ∈ Finset.range k, ((S L cfg A b x k).g i - 1 * ∑ j ∈ Finset.range k, (S L cfg A b x k).H i j * ofVec y j) ^ 2 +
        ∑ i ∈ Finset.range k, ((S L cfg A b x k).g i - -1 * ∑ j ∈ Finset.range k, (S L cfg A b x k).H i j * ofVec y j) ^ 2 =
        2 * ∑ i ∈ Finset.range k, ((S L cfg A b x k).g i - 0 * ∑ j ∈ Finset.range k, (S L cfg A b x k).H i j * ofVec y j) ^ 2 +
        2 * ∑ i ∈ Finset.range k, (∑ j ∈ Finset.range k, (S L cfg A b x k).H i j * ofVec y j) ^ 2 := by
      rw [← Finset.sum_add_distrib, Finset.mul_sum, Finset.mul_sum, ← Finset.sum_add_distrib]
      exact Finset.sum_congr rfl fun i _ => by ring
    linarith
  have hz := (Finset.sum_eq_zero_iff_of_nonneg fun i _ => sq_nonneg _).mp hs
  have hU : block (S L cfg A b x k).H k k *ᵥ y = 0 := by
    funext i
    have := pow_eq_zero_iff two_ne_zero |>.mp (hz i (by simp))
    simp only [mulVec, dotProduct, block]
    rw [Finset.sum_range] at this
    rw [Finset.sum_congr rfl (g := fun j : Fin k => (S L cfg A b x k).H i j * y j) fun j _ => by
      rw [show ofVec y (j : ℕ) = y j by simp [ofVec]]] at this
    exact this
  have hsurj : Function.Surjective (mulVecLin (block (S L cfg A b x k).H k k)) := fun g =>
    ⟨L.tri (block (S L cfg A b x k).H k k) g, hL.tri (block (S L cfg A b x k).H k k) g
      (by intro i j hij
          change (S L cfg A b x k).H i j = 0
          rw [S_H_stable L cfg A b x j.2]; exact H_below L cfg A b x ht hij)
      (by intro i
          change (S L cfg A b x k).H i i ≠ 0
          rw [S_H_stable L cfg A b x i.2, H_diag L cfg A b x ht]; exact hp i i.2)⟩
  have hinj := LinearMap.injective_iff_surjective.mpr hsurj
  exact hinj (by rw [map_zero]; exact hU)

/-- In both modes nothing has broken down exactly if the Arnoldi matrix has full column rank. -/
theorem fine_iff (hL : L.Exact) (k : ℕ) : Fine L cfg A b x k ↔ FullRank L cfg A b x k := by
  by_cases ht : cfg.makeTriangular = true
  · unfold Fine
    rw [if_pos ht]
    refine ⟨fullRank_of_piv L cfg A b x hL ht, fun h => ?_⟩
    induction k with
    | zero => intro j hj; omega
    | succ k ih =>
      have hp := ih (h.mono L cfg A b x (by omega))
      intro j hj
      rcases Nat.lt_succ_iff_lt_or_eq.mp hj with h' | h'
      · exact hp j h'
      · rw [h']; exact piv_ne L cfg A b x hL ht hp h
  · unfold Fine
    rw [if_neg ht]
    exact Iff.rfl

section Lin
variable (M : Mat n n ℝ)

local notation "MV" => (fun v : Vec n ℝ => M *ᵥ v)

theorem hes_of_zero {j : ℕ} (h : V L cfg MV b x j = 0) (i : ℕ) : hes L cfg MV b x i j = 0 := by
  by_cases hi : j + 1 < i
  · exact hes_gt L cfg MV b x hi
  · rcases V_unit L cfg MV b x i with h1 | h1
    · have hrel : (0 : Vec n ℝ) = ∑ i ∈ Finset.range (j + 2), hes L cfg MV b x i j • V L cfg MV b x i := by
        rw [← arnoldi_rel L cfg MV b x j, h]; exact (mulVec_zero M).symm
      have h2 := congrArg (V L cfg MV b x i ⬝ᵥ ·) hrel
      rw [dotProduct_zero, dotProduct_sum, Finset.sum_eq_single i] at h2
      · rw [dotProduct_smul, h1] at h2; simpa using h2.symm
      · intro l _ hl
        rw [dotProduct_smul, V_dot L cfg MV b x hl.symm, smul_zero]
      · intro hn; simp at hn; omega
    · exact hes_zero L cfg MV b x h1

theorem fullRank_V {k : ℕ} (h : FullRank L cfg MV b x k) : ∀ j < k, V L cfg MV b x j ≠ 0 := by
  intro j hj h0
  have := h (Pi.single ⟨j, hj⟩ 1) (by
    funext i
    simp only [mulVec_single_one, Pi.zero_apply]
    exact hes_of_zero L cfg b x M h0 i)
  have := congrFun this ⟨j, hj⟩
  simp at this

theorem coef_of_zero {k : ℕ} {a : ℕ → ℝ} (ha : ∀ i < k, V L cfg A b x i = 0 → a i = 0)
    (h : ∑ i ∈ Finset.range k, a i • V L cfg A b x i = 0) : ∀ i < k, a i = 0 := by
  have ho := ortho_V L cfg A b x k
  have h3 := ortho_sq (m := k) (v := V L cfg A b x) ⟨fun i hi j hj => ho.1 i (by omega) j (by omega),
    fun i hi => ho.2 i (by omega)⟩ ha
  rw [h, zero_dotProduct] at h3
  have h4 := (Finset.sum_eq_zero_iff_of_nonneg fun i _ => sq_nonneg (a i)).mp h3.symm
  intro i hi
  exact pow_eq_zero_iff two_ne_zero |>.mp (h4 i (by simpa using hi))

/-- Full rank means that the basis vectors used are nonzero and the matrix is injective on their span. -/
theorem fullRank_iff (k : ℕ) : FullRank L cfg MV b x k ↔
    (∀ j < k, V L cfg MV b x j ≠ 0) ∧ ∀ v ∈ krylov M (b - M *ᵥ x) k, M *ᵥ v = 0 → v = 0 := by
  rw [← span_V_krylov L cfg b x M k]
  constructor
  · intro h
    refine ⟨fullRank_V L cfg b x M h, fun v hv h0 => ?_⟩
    obtain ⟨y, rfl⟩ := (mem_span_V L cfg MV b x).mp hv
    have hy : ∀ j ∈ Finset.range k, y j • V L cfg MV b x j = ofVec (fun i : Fin k => y i) j • V L cfg MV b x j := by
      intro j hj; simp at hj; simp [ofVec, hj]
    rw [Finset.sum_congr rfl hy] at h0 ⊢
    rw [lin_sum] at h0
    have hc := coef_of_zero L cfg MV b x (fun i _ hi => Finset.sum_eq_zero fun j _ => by
      rw [hes_zero L cfg MV b x hi, zero_mul]) h0
    have hz := h (fun i : Fin k => y i) (by
      funext i; rw [hblock_mulVec]; exact hc i i.2)
    rw [hz]
    exact Finset.sum_eq_zero fun j _ => by simp [ofVec]
  · rintro ⟨hV, hinj⟩ y hy
    have h1 : M *ᵥ (∑ j ∈ Finset.range k, ofVec y j • V L cfg MV b x j) = 0 := by
      rw [lin_sum]
      refine Finset.sum_eq_zero fun i hi => ?_
      have := congrFun hy ⟨i, by simpa using hi⟩
      rw [hblock_mulVec] at this
      rw [this]; simp
    have h2 := hinj _ ((mem_span_V L cfg MV b x).mpr ⟨_, rfl⟩) h1
    have h4 := coef_of_zero L cfg MV b x (fun i hi h => absurd h (hV i hi)) h2
    funext i
    have := h4 i i.2
    simpa [ofVec] using this

theorem V_ne_iff (k : ℕ) : (∀ j < k, V L cfg MV b x j ≠ 0) ↔
    LinearIndependent ℝ (fun i : Fin k => M ^ (i : ℕ) *ᵥ (b - M *ᵥ x)) := by
  have hspan : Submodule.span ℝ (Set.range fun i : Fin k => M ^ (i : ℕ) *ᵥ (b - M *ᵥ x)) =
      Submodule.span ℝ (Set.range fun j : Fin k => V L cfg MV b x j) := (span_V_krylov L cfg b x M k).symm
  rw [linearIndependent_iff_card_eq_finrank_span]
  unfold Set.finrank
  rw [hspan]
  change _ ↔ Fintype.card (Fin k) = Set.finrank ℝ (Set.range fun j : Fin k => V L cfg MV b x j)
  rw [← linearIndependent_iff_card_eq_finrank_span]
  constructor
  · intro h
    rw [Fintype.linearIndependent_iff]
    intro a ha i
    have := coef_of_zero L cfg MV b x (k := k) (a := ofVec a) (fun i hi h0 => absurd h0 (h i hi)) (by
      rw [Finset.sum_range, ← ha]
      exact Finset.sum_congr rfl fun j _ => by simp [ofVec])
    simpa [ofVec] using this i i.2
  · intro h j hj
    exact h.ne_zero ⟨j, hj⟩

theorem krylov_exists {r : Vec n ℝ} {k : ℕ} {v : Vec n ℝ} : v ∈ krylov M r k ↔
    ∃ c : Fin k → ℝ, ∑ i, c i • (M ^ (i : ℕ) *ᵥ r) = v := by
  unfold krylov
  exact Submodule.mem_span_range_iff_exists_fun ℝ

theorem mul_comb {r : Vec n ℝ} {k : ℕ} (c : Fin k → ℝ) :
    M *ᵥ ∑ i, c i • (M ^ (i : ℕ) *ᵥ r) = ∑ i, c i • (M ^ ((i : ℕ) + 1) *ᵥ r) := by
  rw [mulVec_sum]
  exact Finset.sum_congr rfl fun i _ => by rw [mulVec_smul, mulVec_mulVec, pow_succ']

theorem indep_shift {r : Vec n ℝ} {k : ℕ} : LinearIndependent ℝ (fun i : Fin k => M ^ ((i : ℕ) + 1) *ᵥ r) ↔
    LinearIndependent ℝ (fun i : Fin k => M ^ (i : ℕ) *ᵥ r) ∧ ∀ v ∈ krylov M r k, M *ᵥ v = 0 → v = 0 := by
  simp only [Fintype.linearIndependent_iff]
  constructor
  · intro h
    refine ⟨fun c hc => h c ?_, fun v hv h0 => ?_⟩
    · rw [← mul_comb, hc, mulVec_zero]
    · obtain ⟨c, rfl⟩ := (krylov_exists M).mp hv
      rw [mul_comb] at h0
      exact Finset.sum_eq_zero fun i _ => by rw [h c h0 i, zero_smul]
  · rintro ⟨h1, h2⟩ c hc
    exact h1 c (h2 _ ((krylov_exists M).mpr ⟨c, rfl⟩) (by rw [mul_comb, hc]))

/-- Full rank after `k` rounds means that `M r, …, M^k r` are linearly independent. -/
theorem fullRank_indep (k : ℕ) : FullRank L cfg MV b x k ↔
    LinearIndependent ℝ (fun i : Fin k => M ^ ((i : ℕ) + 1) *ᵥ (b - M *ᵥ x)) := by
  rw [fullRank_iff, V_ne_iff, indep_shift]

/-- If `M^(k+1) r` depends on `M r, …, M^k r`, then `M` maps all Krylov spaces to the span of these. -/
theorem krylov_image {r : Vec n ℝ} {k : ℕ} (h1 : LinearIndependent ℝ (fun i : Fin k => M ^ ((i : ℕ) + 1) *ᵥ r))
    (h2 : ¬LinearIndependent ℝ (fun i : Fin (k + 1) => M ^ ((i : ℕ) + 1) *ᵥ r)) {m : ℕ} {v : Vec n ℝ} (hv : v ∈ krylov M r m) :
    ∃ w ∈ krylov M r k, M *ᵥ w = M *ᵥ v := by
  have hlast : M ^ (k + 1) *ᵥ r ∈ Submodule.span ℝ (Set.range fun i : Fin k => M ^ ((i : ℕ) + 1) *ᵥ r) := by
    by_contra hn
    refine h2 ?_
    rw [linearIndependent_finSucc']
    refine ⟨?_, ?_⟩
    · exact h1
    · exact hn
  obtain ⟨c, hc⟩ := (Submodule.mem_span_range_iff_exists_fun ℝ).mp hlast
  have hpow : ∀ i, ∃ w ∈ krylov M r k, M *ᵥ w = M ^ (i + 1) *ᵥ r := by
    intro i
    induction i with
    | zero =>
      rcases Nat.eq_zero_or_pos k with rfl | hk
      · refine ⟨0, Submodule.zero_mem _, ?_⟩
        rw [mulVec_zero, ← hc]; simp
      · exact ⟨M ^ 0 *ᵥ r, Submodule.subset_span ⟨⟨0, hk⟩, rfl⟩, by rw [mulVec_mulVec, ← pow_succ']⟩
    | succ i ih =>
      obtain ⟨w, hw, he⟩ := ih
      obtain ⟨d, rfl⟩ := (krylov_exists M).mp hw
      -- every power up to `k + 1` is in the image
      have hstep : ∀ l : ℕ, l ≤ k → ∃ w ∈ krylov M r k, M *ᵥ w = M ^ (l + 1) *ᵥ r := by
        intro l hl
        rcases Nat.lt_or_eq_of_le hl with h | h
        · exact ⟨M ^ l *ᵥ r, Submodule.subset_span ⟨⟨l, h⟩, rfl⟩, by rw [mulVec_mulVec, ← pow_succ']⟩
        · subst h
          exact ⟨∑ i, c i • (M ^ (i : ℕ) *ᵥ r), (krylov_exists M).mpr ⟨c, rfl⟩, by rw [mul_comb, hc]⟩
      choose f hf hfe using fun i : Fin k => hstep ((i : ℕ) + 1) i.2
      refine ⟨∑ i, d i • f i, Submodule.sum_mem _ fun i _ => Submodule.smul_mem _ _ (hf i), ?_⟩
      rw [mulVec_sum, pow_succ', ← mulVec_mulVec, ← he, mul_comb, mulVec_sum]
      refine Finset.sum_congr rfl fun i _ => ?_
      rw [mulVec_smul, mulVec_smul, hfe, mulVec_mulVec, ← pow_succ']
  choose f hf hfe using hpow
  obtain ⟨d, rfl⟩ := (krylov_exists M).mp hv
  refine ⟨∑ i : Fin m, d i • f i, Submodule.sum_mem _ fun i _ => Submodule.smul_mem _ _ (hf i), ?_⟩
  rw [mul_comb, mulVec_sum]
  exact Finset.sum_congr rfl fun i _ => by rw [mulVec_smul, hfe]

end Lin

end Nmpc.Gmres
