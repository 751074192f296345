import Verif.CGMRES.Resid
import Mathlib.LinearAlgebra.Dimension.Constructions
import Mathlib.LinearAlgebra.FiniteDimensional.Lemmas
import Mathlib.LinearAlgebra.Matrix.NonsingularInverse

/-!
# Helper lemmas for GMRES: minimality and absence of breakdown
-/

set_option linter.unusedSectionVars false

namespace Nmpc.Gmres

open Matrix

/-- Exactness of the two dense solvers: back substitution solves nonsingular upper triangular systems, the QR solver
returns a least-squares solution for full column rank. -/
structure Dense.Exact (L : Dense ℝ) : Prop where
  tri : ∀ {k : ℕ} (U : Mat k k ℝ) (g : Vec k ℝ), (∀ i j, j < i → U i j = 0) → (∀ i, U i i ≠ 0) →
    U *ᵥ L.tri U g = g
  qr : ∀ {k : ℕ} (M : Mat (k + 1) k ℝ) (g : Vec (k + 1) ℝ), (∀ y, M *ᵥ y = 0 → y = 0) →
    ∀ y, (g - M *ᵥ L.qr M g) ⬝ᵥ (g - M *ᵥ L.qr M g) ≤ (g - M *ᵥ y) ⬝ᵥ (g - M *ᵥ y)

variable {n : ℕ}
variable (L : Dense ℝ) (cfg : Config ℝ) (A : Vec n ℝ → Vec n ℝ) (b x : Vec n ℝ)

/-- Condition under which round `k` has not broken down. -/
def Fine (k : ℕ) : Prop :=
  if cfg.makeTriangular then ∀ j < k, piv L cfg A b x j ≠ 0
  else ∀ y, hblock L cfg A b x k *ᵥ y = 0 → y = 0

theorem Fine.tri {k : ℕ} (h : Fine L cfg A b x k) (ht : cfg.makeTriangular = true) :
    ∀ j < k, piv L cfg A b x j ≠ 0 := by
  unfold Fine at h; rwa [if_pos ht] at h

theorem Fine.lsq {k : ℕ} (h : Fine L cfg A b x k) (ht : cfg.makeTriangular = false) :
    ∀ y, hblock L cfg A b x k *ᵥ y = 0 → y = 0 := by
  unfold Fine at h; rwa [if_neg (by simp [ht])] at h

theorem hblock_mulVec (k : ℕ) (y : Vec k ℝ) (i : Fin (k + 1)) :
    (hblock L cfg A b x k *ᵥ y) i = ∑ j ∈ Finset.range k, hes L cfg A b x i j * ofVec y j := by
  simp only [mulVec, dotProduct, hblock]
  rw [Finset.sum_range]
  exact Finset.sum_congr rfl fun j _ => by simp [ofVec]

theorem Fine.mono {k m : ℕ} (h : Fine L cfg A b x m) (hk : k ≤ m) : Fine L cfg A b x k := by
  unfold Fine at h ⊢
  split
  · rename_i ht; rw [if_pos ht] at h; exact fun j hj => h j (by omega)
  · rename_i ht
    rw [if_neg ht] at h
    intro y hy
    have := h (fun i => ofVec y i) (by
      funext i
      rw [hblock_mulVec]
      have e : ∀ j ∈ Finset.range m, hes L cfg A b x i j * ofVec (fun i : Fin m => ofVec y i) j =
          hes L cfg A b x i j * ofVec y j := by
        intro j hj
        congr 1
        simp at hj
        simp [ofVec, hj]
      rw [Finset.sum_congr rfl e, ← Finset.sum_subset (s₁ := Finset.range k)
        (by intro j; simp; omega) (by intro j _ hj; simp at hj; simp [ofVec, show ¬ j < k by omega])]
      by_cases hi : (i : ℕ) < k + 1
      · have := congrFun hy ⟨i, hi⟩
        rw [hblock_mulVec] at this; exact this
      · refine Finset.sum_eq_zero fun j hj => ?_
        rw [hes_gt L cfg A b x (by simp at hj; omega), zero_mul])
    funext i
    have h' := congrFun this ⟨i, by omega⟩
    simpa [ofVec] using h'

/-- `y_k` satisfies the triangular system. -/
theorem coef_tri (hL : L.Exact) (ht : cfg.makeTriangular = true) {k : ℕ} (hp : ∀ j < k, piv L cfg A b x j ≠ 0)
    {i : ℕ} (hi : i < k) : ∑ j ∈ Finset.range k, (S L cfg A b x k).H i j * coef L cfg (S L cfg A b x k) j =
      (S L cfg A b x k).g i := by
  have h := hL.tri (block (S L cfg A b x k).H k k) (vhead (S L cfg A b x k).g k)
    (by intro i j hij
        change (S L cfg A b x k).H i j = 0
        rw [S_H_stable L cfg A b x j.2]; exact H_below L cfg A b x ht hij)
    (by intro i
        change (S L cfg A b x k).H i i ≠ 0
        rw [S_H_stable L cfg A b x i.2, H_diag L cfg A b x ht]; exact hp i i.2)
  have h' := congrFun h ⟨i, hi⟩
  simp only [mulVec, dotProduct, block, vhead] at h'
  rw [← h', Finset.sum_range]
  refine Finset.sum_congr rfl fun j _ => ?_
  congr 1
  unfold coef
  rw [if_pos ht]
  have e : ∀ m, m = k → ofVec (L.tri (block (S L cfg A b x k).H m m) (vhead (S L cfg A b x k).g m)) =
      ofVec (L.tri (block (S L cfg A b x k).H k k) (vhead (S L cfg A b x k).g k)) := by
    rintro _ rfl; rfl
  rw [e _ (S_k L cfg A b x k)]
  simp only [ofVec, j.2, dite_true]

theorem coef_lsq (ht : cfg.makeTriangular = false) (k : ℕ) :
    coef L cfg (S L cfg A b x k) = (S L cfg A b x k).y := by
  unfold coef; rw [if_neg (by simp [ht])]

/-- The recorded error is the norm of the residual coefficients. -/
theorem rho_sq (hL : L.Exact) {k : ℕ} (hf : cfg.makeTriangular = true → Fine L cfg A b x k) :
    (S L cfg A b x k).rho ^ 2 =
      ∑ i ∈ Finset.range (k + 1), rc L cfg A b x k (coef L cfg (S L cfg A b x k)) i ^ 2 := by
  by_cases ht : cfg.makeTriangular = true
  · have hp := (hf ht).tri L cfg A b x ht
    rw [rc_rots L cfg A b x ht hp, Finset.sum_eq_zero, zero_add]
    intro i hi
    rw [coef_tri L cfg A b x hL ht hp (by simpa using hi)]; ring
  · have ht' : cfg.makeTriangular = false := by simpa using ht
    rw [coef_lsq L cfg A b x ht', S_lsq_rho L cfg A b x ht']

/-- The recorded error is minimal. -/
theorem rho_min (hL : L.Exact) {k : ℕ} (hf : Fine L cfg A b x k) (y : ℕ → ℝ) :
    (S L cfg A b x k).rho ^ 2 ≤ ∑ i ∈ Finset.range (k + 1), rc L cfg A b x k y i ^ 2 := by
  by_cases ht : cfg.makeTriangular = true
  · rw [rc_rots L cfg A b x ht (hf.tri L cfg A b x ht)]
    have : 0 ≤ ∑ i ∈ Finset.range k,
        ((S L cfg A b x k).g i - ∑ j ∈ Finset.range k, (S L cfg A b x k).H i j * y j) ^ 2 :=
      Finset.sum_nonneg fun i _ => sq_nonneg _
    linarith
  · have ht' : cfg.makeTriangular = false := by simpa using ht
    rcases Nat.eq_zero_or_pos k with hk | hk
    · subst hk; simp [init, rc, e0]
    · have h := hL.qr (hblock L cfg A b x k) (vhead (e0 A b x) (k + 1)) (hf.lsq L cfg A b x ht') (fun i => y i)
      rw [← vnorm_sq, ← vnorm_sq, vnorm_rc, vnorm_rc] at h
      rw [S_lsq_rho L cfg A b x ht', S_lsq_y L cfg A b x ht' hk]
      refine h.trans (le_of_eq ?_)
      refine Finset.sum_congr rfl fun i _ => ?_
      unfold rc
      congr 2
      refine Finset.sum_congr rfl fun j hj => ?_
      simp at hj
      simp [ofVec, hj]

theorem rho_anti (hL : L.Exact) {k : ℕ} (hf : Fine L cfg A b x (k + 1)) :
    (S L cfg A b x (k + 1)).rho ≤ (S L cfg A b x k).rho := by
  by_cases ht : cfg.makeTriangular = true
  · have hp := hf.tri L cfg A b x ht k (by omega)
    have hu := cs_unit L cfg A b x ht hp
    rw [S_rho L cfg A b x ht, S_rho L cfg A b x ht, S_g L cfg A b x ht (k + 1), rots_succ, ← S_g L cfg A b x ht]
    unfold rot
    rw [Function.update_self, S_g_gt L cfg A b x ht (Nat.lt_succ_self k), mul_zero, add_zero, abs_mul]
    have : |ss L cfg A b x k| ≤ 1 := by
      rw [← sq_le_one_iff_abs_le_one]; nlinarith [sq_nonneg (cc L cfg A b x k)]
    nlinarith [abs_nonneg ((S L cfg A b x k).g k)]
  · have ht' : cfg.makeTriangular = false := by simpa using ht
    refine abs_le_of_sq_le_sq' ?_ (S_rho_nonneg L cfg A b x k) |>.2
    refine (rho_min L cfg A b x hL hf (S L cfg A b x k).y).trans (le_of_eq ?_)
    have hy : (S L cfg A b x k).y k = 0 := by
      rcases Nat.eq_zero_or_pos k with hk | hk
      · subst hk; rfl
      · rw [S_lsq_y L cfg A b x ht' hk]; simp [ofVec]
    have e : ∀ i, rc L cfg A b x (k + 1) (S L cfg A b x k).y i = rc L cfg A b x k (S L cfg A b x k).y i := by
      intro i; unfold rc; rw [Finset.sum_range_succ, hy]; ring
    rw [Finset.sum_congr rfl fun i _ => by rw [e i], Finset.sum_range_succ, ← S_lsq_rho L cfg A b x ht']
    have : rc L cfg A b x k (S L cfg A b x k).y (k + 1) = 0 := by
      unfold rc
      rw [Finset.sum_eq_zero fun j hj => by rw [hes_gt L cfg A b x (by simp at hj; omega), zero_mul]]
      simp [e0]
    rw [this]; ring

/-! ### Invertible matrices -/

section Inv
variable (M : Mat n n ℝ)

local notation "MV" => (fun v : Vec n ℝ => M *ᵥ v)

theorem lin_sum (k : ℕ) (y : Vec k ℝ) :
    M *ᵥ (∑ j ∈ Finset.range k, ofVec y j • V L cfg MV b x j) =
      ∑ i ∈ Finset.range (k + 1), (∑ j ∈ Finset.range k, hes L cfg MV b x i j * ofVec y j) • V L cfg MV b x i := by
  rw [mulVec_sum]
  simp only [mulVec_smul, Finset.sum_smul]
  rw [Finset.sum_comm]
  refine Finset.sum_congr rfl fun j hj => ?_
  have hj' : j < k := by simpa using hj
  rw [show M *ᵥ V L cfg MV b x j = _ from arnoldi_rel L cfg MV b x j, Finset.smul_sum]
  rw [← Finset.sum_subset (s₁ := Finset.range (j + 2)) (s₂ := Finset.range (k + 1))
    (by intro i; simp; omega) (by
      intro i _ hi
      rw [hes_gt L cfg MV b x (by simp at hi; omega), zero_mul, zero_smul])]
  exact Finset.sum_congr rfl fun i _ => by rw [smul_smul, mul_comm]

theorem hblock_inj (hM : ∀ v, M *ᵥ v = 0 → v = 0) {k : ℕ} (hV : ∀ j < k, V L cfg MV b x j ≠ 0)
    {y : Vec k ℝ} (hy : hblock L cfg MV b x k *ᵥ y = 0) : y = 0 := by
  have h1 : M *ᵥ (∑ j ∈ Finset.range k, ofVec y j • V L cfg MV b x j) = 0 := by
    rw [lin_sum]
    refine Finset.sum_eq_zero fun i hi => ?_
    have := congrFun hy ⟨i, by simpa using hi⟩
    rw [hblock_mulVec] at this
    rw [this]; simp
  have h2 := hM _ h1
  have ho := ortho_V L cfg MV b x k
  have h3 := ortho_sq (m := k) (v := V L cfg MV b x) ⟨fun i hi j hj => ho.1 i (by omega) j (by omega),
    fun i hi => ho.2 i (by omega)⟩ (a := ofVec y) (fun i hi h => absurd h (hV i hi))
  rw [h2, zero_dotProduct] at h3
  have h4 := (Finset.sum_eq_zero_iff_of_nonneg fun i _ => sq_nonneg (ofVec y i)).mp h3.symm
  funext i
  have := h4 i (by simp)
  simpa [ofVec] using this

/-- A zero basis vector after `k` good rounds means that the error is zero. -/
theorem rho_zero (hL : L.Exact) (hM : ∀ v, M *ᵥ v = 0 → v = 0) {k : ℕ} (hV : ∀ j < k, V L cfg MV b x j ≠ 0)
    (hf : Fine L cfg MV b x k) (h0 : V L cfg MV b x k = 0) : (S L cfg MV b x k).rho = 0 := by
  -- the square part of the Hessenberg matrix
  have hinj : Function.Injective (mulVecLin (fun i j : Fin k => hes L cfg MV b x i j : Mat k k ℝ)) := by
    rw [← LinearMap.ker_eq_bot, LinearMap.ker_eq_bot']
    intro y hy
    refine hblock_inj L cfg b x M hM hV ?_
    funext i
    rw [hblock_mulVec]
    by_cases hi : (i : ℕ) < k
    · have : ∑ j : Fin k, hes L cfg MV b x i j * y j = 0 := congrFun hy ⟨i, hi⟩
      rw [Finset.sum_range]
      simpa [ofVec] using this
    · have : (i : ℕ) = k := by omega
      rw [this]
      exact Finset.sum_eq_zero fun j _ => by rw [hes_zero L cfg MV b x h0, zero_mul]
  obtain ⟨y, hy⟩ := (LinearMap.injective_iff_surjective.mp hinj) (fun i => e0 MV b x i)
  have h := rho_min L cfg MV b x hL hf (ofVec y)
  rw [Finset.sum_eq_zero] at h
  · exact pow_eq_zero_iff (two_ne_zero) |>.mp (le_antisymm h (sq_nonneg _))
  · intro i hi
    have : rc L cfg MV b x k (ofVec y) i = 0 := by
      by_cases hik : i < k
      · have h' : ∑ j : Fin k, hes L cfg MV b x i j * y j = e0 MV b x i := congrFun hy ⟨i, hik⟩
        unfold rc
        rw [Finset.sum_range, ← h', sub_eq_zero]
        exact Finset.sum_congr rfl fun j _ => by simp [ofVec]
      · have : i = k := by simp at hi; omega
        rw [this]; exact rc_zero L cfg MV b x h0
    rw [this]; ring

theorem piv_ne (hL : L.Exact) (ht : cfg.makeTriangular = true) {k : ℕ} (hp : ∀ j < k, piv L cfg A b x j ≠ 0)
    (hinj : ∀ y, hblock L cfg A b x (k + 1) *ᵥ y = 0 → y = 0) : piv L cfg A b x k ≠ 0 := by
  intro h0
  have hsq := piv_sq L cfg A b x k
  rw [h0] at hsq
  have p1 : pcol L cfg A b x k k = 0 := by nlinarith [sq_nonneg (pcol L cfg A b x k k), sq_nonneg (pcol L cfg A b x k (k + 1))]
  have p2 : pcol L cfg A b x k (k + 1) = 0 := by nlinarith [sq_nonneg (pcol L cfg A b x k k), sq_nonneg (pcol L cfg A b x k (k + 1))]
  -- a combination of the columns that vanishes
  set z : Vec k ℝ := L.tri (block (S L cfg A b x k).H k k) (fun i => -pcol L cfg A b x k i) with hz
  have hsol := hL.tri (block (S L cfg A b x k).H k k) (fun i => -pcol L cfg A b x k i)
    (by intro i j hij
        change (S L cfg A b x k).H i j = 0
        rw [S_H_stable L cfg A b x j.2]; exact H_below L cfg A b x ht hij)
    (by intro i
        change (S L cfg A b x k).H i i ≠ 0
        rw [S_H_stable L cfg A b x i.2, H_diag L cfg A b x ht]; exact hp i i.2)
  rw [← hz] at hsol
  let y : ℕ → ℝ := fun j => if j = k then 1 else ofVec z j
  let w : ℕ → ℝ := fun i => ∑ j ∈ Finset.range (k + 1), hes L cfg A b x i j * y j
  have hw : rots (cc L cfg A b x) (ss L cfg A b x) k w = fun i =>
      ∑ j ∈ Finset.range k, (S L cfg A b x k).H i j * ofVec z j + pcol L cfg A b x k i := by
    have h1 : w = ∑ j ∈ Finset.range k, ofVec z j • (fun i => hes L cfg A b x i j) + fun i => hes L cfg A b x i k := by
      funext i
      simp only [w, y, Finset.sum_range_succ, if_true, mul_one, Pi.add_apply, Finset.sum_apply, Pi.smul_apply, smul_eq_mul]
      congr 1
      refine Finset.sum_congr rfl fun j hj => ?_
      rw [if_neg (by simp at hj; omega), mul_comm]
    have h2 : rots (cc L cfg A b x) (ss L cfg A b x) k w = rotsL (cc L cfg A b x) (ss L cfg A b x) k w := rfl
    rw [h2, h1, map_add, map_sum]
    simp only [map_smul]
    funext i
    rw [Pi.add_apply, Finset.sum_apply]
    congr 1
    refine Finset.sum_congr rfl fun j hj => ?_
    rw [Pi.smul_apply, smul_eq_mul, mul_comm]
    congr 1
    exact (congrFun (H_col L cfg A b x ht (by simpa using hj)) i).symm
  have hw0 : ∀ i < k + 1, rots (cc L cfg A b x) (ss L cfg A b x) k w i = 0 := by
    intro i hi
    rw [hw]; dsimp only
    by_cases hik : i < k
    · have := congrFun hsol ⟨i, hik⟩
      simp only [mulVec, dotProduct, block] at this
      rw [Finset.sum_range, Finset.sum_congr rfl (g := fun j : Fin k => (S L cfg A b x k).H i j * z j)
        fun j _ => by simp [ofVec], this]
      ring
    · have : i = k := by omega
      subst this
      rw [p1, add_zero]
      refine Finset.sum_eq_zero fun j hj => ?_
      have hj' : j < i := by simpa using hj
      rw [S_H_stable L cfg A b x hj', H_below L cfg A b x ht hj', zero_mul]
  have hsum := rots_sqsum (k := k) (fun i hi => cs_unit L cfg A b x ht (hp i hi)) w
  rw [Finset.sum_eq_zero fun i hi => by rw [hw0 i (by simpa using hi)]; ring] at hsum
  have hall := (Finset.sum_eq_zero_iff_of_nonneg fun i _ => sq_nonneg (w i)).mp hsum.symm
  have := hinj (fun j => y j) (by
    funext i
    rw [hblock_mulVec, Finset.sum_congr rfl (g := fun j => hes L cfg A b x i j * y j) (fun j hj => by
      simp at hj; simp [ofVec, hj])]
    by_cases hi : (i : ℕ) < k + 1
    · exact pow_eq_zero_iff two_ne_zero |>.mp (hall i (by simpa using hi))
    · have hi' : (i : ℕ) = k + 1 := by omega
      rw [hi', Finset.sum_range_succ, ← pcol_sub, p2, zero_mul, add_zero]
      refine Finset.sum_eq_zero fun j hj => ?_
      rw [hes_gt L cfg A b x (by simp at hj; omega), zero_mul])
  have := congrFun this ⟨k, by omega⟩
  simp [y] at this

/-- As long as the error is positive nothing breaks down. -/
theorem invertible_fine (hL : L.Exact) (hM : ∀ v, M *ᵥ v = 0 → v = 0) (k : ℕ)
    (hr : ∀ j < k, (S L cfg MV b x j).rho ≠ 0) :
    (∀ j < k, V L cfg MV b x j ≠ 0) ∧ Fine L cfg MV b x k := by
  induction k with
  | zero =>
    refine ⟨fun j hj => by omega, ?_⟩
    unfold Fine
    split
    · intro j hj; omega
    · intro y _; funext i; exact i.elim0
  | succ k ih =>
    obtain ⟨h1, h2⟩ := ih fun j hj => hr j (by omega)
    have hVk : V L cfg MV b x k ≠ 0 := fun h0 => hr k (by omega) (rho_zero L cfg b x M hL hM h1 h2 h0)
    have hV : ∀ j < k + 1, V L cfg MV b x j ≠ 0 := by
      intro j hj
      rcases Nat.lt_succ_iff_lt_or_eq.mp hj with h | h
      · exact h1 j h
      · rw [h]; exact hVk
    have hinj : ∀ y, hblock L cfg MV b x (k + 1) *ᵥ y = 0 → y = 0 := fun y hy => hblock_inj L cfg b x M hM hV hy
    refine ⟨hV, ?_⟩
    unfold Fine
    split
    · rename_i ht
      intro j hj
      rcases Nat.lt_succ_iff_lt_or_eq.mp hj with h | h
      · exact h2.tri L cfg MV b x ht j h
      · rw [h]; exact piv_ne L cfg MV b x hL ht (h2.tri L cfg MV b x ht) hinj
    · exact hinj

/-- There are at most `n` nonzero basis vectors. -/
theorem V_dim {k : ℕ} (hV : ∀ j < k, V L cfg A b x j ≠ 0) : k ≤ n := by
  have hli : LinearIndependent ℝ (fun j : Fin k => V L cfg A b x j) := by
    rw [Fintype.linearIndependent_iff]
    intro a ha j
    have h1 : V L cfg A b x j ⬝ᵥ (∑ i, a i • V L cfg A b x i) = 0 := by rw [ha, dotProduct_zero]
    rw [dotProduct_sum, Finset.sum_eq_single j] at h1
    · rw [dotProduct_smul] at h1
      rcases V_unit L cfg A b x j with h | h
      · rw [h] at h1; simpa using h1
      · exact absurd h (hV j j.2)
    · intro i _ hij
      rw [dotProduct_smul, V_dot L cfg A b x (fun h => hij (Fin.ext h.symm)), smul_zero]
    · simp
  have := hli.fintype_card_le_finrank
  simpa using this

end Inv

end Nmpc.Gmres
