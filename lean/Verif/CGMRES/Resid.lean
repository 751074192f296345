import Verif.CGMRES.Arnoldi

/-!
# Helper lemmas for GMRES: triangularisation, residual of the iterates
-/

set_option linter.unusedSectionVars false

namespace Nmpc.Gmres

open Matrix

variable {n : ℕ}
variable (L : Dense ℝ) (cfg : Config ℝ) (A : Vec n ℝ → Vec n ℝ) (b x : Vec n ℝ)

/-- Rotation coefficients of round `i + 1`. -/
noncomputable def cc (i : ℕ) : ℝ := (S L cfg A b x (i + 1)).c i
/-- Rotation coefficients of round `i + 1`. -/
noncomputable def ss (i : ℕ) : ℝ := (S L cfg A b x (i + 1)).s i

/-- `g_` before the loop. -/
noncomputable def e0 : ℕ → ℝ := fun i => if i = 0 then vnorm (b - A x) else 0

section Tri
variable (ht : cfg.makeTriangular = true)
include ht

theorem S_cs {i k : ℕ} (h : i < k) :
    (S L cfg A b x k).c i = cc L cfg A b x i ∧ (S L cfg A b x k).s i = ss L cfg A b x i := by
  induction k with
  | zero => omega
  | succ k ih =>
    rcases Nat.lt_succ_iff_lt_or_eq.mp h with h' | h'
    · rw [← (ih h').1, ← (ih h').2, iter_S, if_pos ht]
      unfold triStep; dsimp only; rw [S_k]
      rw [Function.update_of_ne (by omega), Function.update_of_ne (by omega)]
      exact ⟨rfl, rfl⟩
    · rw [h']; exact ⟨rfl, rfl⟩

/-- Column of round `j + 1` after the previous rotations. -/
noncomputable def pcol (j : ℕ) : ℕ → ℝ := rots (cc L cfg A b x) (ss L cfg A b x) j fun i => hes L cfg A b x i j

omit ht in
/-- The pivot `nu`. -/
noncomputable def piv (j : ℕ) : ℝ :=
  Real.sqrt (pcol L cfg A b x j j * pcol L cfg A b x j j + pcol L cfg A b x j (j + 1) * pcol L cfg A b x j (j + 1))

theorem S_tri (k : ℕ) : S L cfg A b x (k + 1) =
    { k := k + 1
      basis := Function.update (S L cfg A b x k).basis (k + 1) (V L cfg A b x (k + 1))
      H := setCol (S L cfg A b x k).H k (Function.update (Function.update (pcol L cfg A b x k) k
        (pcol L cfg A b x k k / piv L cfg A b x k * pcol L cfg A b x k k
          - -pcol L cfg A b x k (k + 1) / piv L cfg A b x k * pcol L cfg A b x k (k + 1))) (k + 1) 0)
      g := rot (pcol L cfg A b x k k / piv L cfg A b x k) (-pcol L cfg A b x k (k + 1) / piv L cfg A b x k) k
        (S L cfg A b x k).g
      c := Function.update (S L cfg A b x k).c k (pcol L cfg A b x k k / piv L cfg A b x k)
      s := Function.update (S L cfg A b x k).s k (-pcol L cfg A b x k (k + 1) / piv L cfg A b x k)
      y := (S L cfg A b x k).y
      rho := |rot (pcol L cfg A b x k k / piv L cfg A b x k) (-pcol L cfg A b x k (k + 1) / piv L cfg A b x k) k
        (S L cfg A b x k).g (k + 1)|
      err := (S L cfg A b x k).err ++
        [|rot (pcol L cfg A b x k k / piv L cfg A b x k) (-pcol L cfg A b x k (k + 1) / piv L cfg A b x k) k
        (S L cfg A b x k).g (k + 1)|] } := by
  rw [iter_S, if_pos ht]
  unfold triStep; dsimp only; rw [S_k]
  have : rots (S L cfg A b x k).c (S L cfg A b x k).s k (fun i => hes L cfg A b x i k) = pcol L cfg A b x k :=
    rots_congr (fun i hi => (S_cs L cfg A b x ht hi).1) (fun i hi => (S_cs L cfg A b x ht hi).2) _
  rw [this]
  rfl

theorem cc_eq (k : ℕ) : cc L cfg A b x k = pcol L cfg A b x k k / piv L cfg A b x k := by
  unfold cc; rw [S_tri L cfg A b x ht]; dsimp only; rw [Function.update_self]

theorem ss_eq (k : ℕ) : ss L cfg A b x k = -pcol L cfg A b x k (k + 1) / piv L cfg A b x k := by
  unfold ss; rw [S_tri L cfg A b x ht]; dsimp only; rw [Function.update_self]

omit ht in
theorem piv_sq (j : ℕ) : piv L cfg A b x j ^ 2 = pcol L cfg A b x j j ^ 2 + pcol L cfg A b x j (j + 1) ^ 2 := by
  unfold piv; rw [Real.sq_sqrt (add_nonneg (mul_self_nonneg _) (mul_self_nonneg _))]; ring

theorem S_g (k : ℕ) : (S L cfg A b x k).g = rots (cc L cfg A b x) (ss L cfg A b x) k (e0 A b x) := by
  induction k with
  | zero => rfl
  | succ k ih => rw [S_tri L cfg A b x ht, rots_succ, ← ih, cc_eq L cfg A b x ht, ss_eq L cfg A b x ht]

theorem S_rho (k : ℕ) : (S L cfg A b x k).rho = |(S L cfg A b x k).g k| := by
  cases k with
  | zero => simp only [S_zero, init, if_pos]; rw [abs_of_nonneg (vnorm_nonneg _)]
  | succ k => rw [S_tri L cfg A b x ht]

theorem S_g_gt {k i : ℕ} (h : k < i) : (S L cfg A b x k).g i = 0 := by
  rw [S_g L cfg A b x ht, rots_of_gt _ _ _ _ h]; simp [e0, show i ≠ 0 by omega]

omit ht in
theorem pcol_sub (j : ℕ) : pcol L cfg A b x j (j + 1) = hes L cfg A b x (j + 1) j :=
  rots_of_gt _ _ _ _ (Nat.lt_succ_self j)

/-- The pivot is the new diagonal entry of `H_`. -/
theorem H_diag (j : ℕ) : (S L cfg A b x (j + 1)).H j j = piv L cfg A b x j := by
  rw [S_tri L cfg A b x ht]; simp only [setCol, if_true]
  rw [Function.update_of_ne (by omega), Function.update_self]
  by_cases h : piv L cfg A b x j = 0
  · simp [h]
  · field_simp
    have := piv_sq L cfg A b x j
    linarith

theorem H_below {i j : ℕ} (h : j < i) : (S L cfg A b x (j + 1)).H i j = 0 := by
  rw [S_tri L cfg A b x ht]; simp only [setCol, if_true]
  by_cases h' : i = j + 1
  · rw [h', Function.update_self]
  · rw [Function.update_of_ne h', Function.update_of_ne (by omega)]
    unfold pcol; rw [rots_of_gt _ _ _ _ h]; exact hes_gt L cfg A b x (by omega)

theorem H_col_first (j : ℕ) : (fun i => (S L cfg A b x (j + 1)).H i j) =
    rots (cc L cfg A b x) (ss L cfg A b x) (j + 1) fun i => hes L cfg A b x i j := by
  rw [rots_succ, cc_eq L cfg A b x ht, ss_eq L cfg A b x ht, S_tri L cfg A b x ht]
  simp only [setCol, if_true]
  change Function.update _ _ _ = rot _ _ j (pcol L cfg A b x j)
  unfold rot
  congr 1
  ring

/-- Columns of `H_` are the rotated Hessenberg columns. -/
theorem H_col {j k : ℕ} (h : j < k) : (fun i => (S L cfg A b x k).H i j) =
    rots (cc L cfg A b x) (ss L cfg A b x) k fun i => hes L cfg A b x i j := by
  induction k with
  | zero => omega
  | succ k ih =>
    rcases Nat.lt_succ_iff_lt_or_eq.mp h with h' | h'
    · have e : (fun i => (S L cfg A b x (k + 1)).H i j) = fun i => (S L cfg A b x k).H i j := by
        funext i; rw [S_H_stable L cfg A b x h, S_H_stable L cfg A b x h']
      rw [e, rots_succ, ← ih h']
      refine (rot_of_zero ?_ ?_).symm
      · rw [S_H_stable L cfg A b x h']; exact H_below L cfg A b x ht h'
      · rw [S_H_stable L cfg A b x h']; exact H_below L cfg A b x ht (by omega)
    · subst h'; exact H_col_first L cfg A b x ht j

theorem cs_unit {j : ℕ} (h : piv L cfg A b x j ≠ 0) : cc L cfg A b x j ^ 2 + ss L cfg A b x j ^ 2 = 1 := by
  rw [cc_eq L cfg A b x ht, ss_eq L cfg A b x ht, div_pow, div_pow, ← add_div, neg_sq, ← piv_sq]
  exact div_self (pow_ne_zero 2 h)

end Tri

/-! ### Residual of an arbitrary point of the search space -/

/-- `ρ₀ e₀ - H̄ y`: coefficients of the residual in the basis. -/
noncomputable def rc (k : ℕ) (y : ℕ → ℝ) (i : ℕ) : ℝ :=
  e0 A b x i - ∑ j ∈ Finset.range k, hes L cfg A b x i j * y j

theorem rc_zero {k : ℕ} {y : ℕ → ℝ} {i : ℕ} (h : V L cfg A b x i = 0) : rc L cfg A b x k y i = 0 := by
  unfold rc
  rw [Finset.sum_eq_zero fun j _ => by rw [hes_zero L cfg A b x h, zero_mul]]
  unfold e0
  split
  · rename_i h'; subst h'; rw [(V0_eq_zero L cfg A b x).mp h, sub_zero]
  · simp

theorem ortho_sq {v : ℕ → Vec n ℝ} {m : ℕ} (ho : Ortho v m) {a : ℕ → ℝ} (ha : ∀ i < m, v i = 0 → a i = 0) :
    (∑ i ∈ Finset.range m, a i • v i) ⬝ᵥ (∑ i ∈ Finset.range m, a i • v i) = ∑ i ∈ Finset.range m, a i ^ 2 := by
  rw [sum_dotProduct]
  refine Finset.sum_congr rfl fun i hi => ?_
  have hi' : i < m := by simpa using hi
  rw [dotProduct_sum, Finset.sum_eq_single i]
  · rw [smul_dotProduct, dotProduct_smul]
    rcases ho.2 i hi' with h | h
    · rw [h]; simp [sq]
    · rw [ha i hi' h]; simp
  · intro j hj hij
    rw [smul_dotProduct, dotProduct_smul, ho.1 i hi' j (by simpa using hj) (Ne.symm hij)]; simp
  · intro h; exact absurd hi h

section Linear
variable (M : Mat n n ℝ)

/-- Residual at `x + Σ y_j v_j`. -/
theorem resid_eq (k : ℕ) (y : ℕ → ℝ) :
    b - M *ᵥ (x + ∑ j ∈ Finset.range k, y j • V L cfg (M *ᵥ ·) b x j) =
      ∑ i ∈ Finset.range (k + 1), rc L cfg (M *ᵥ ·) b x k y i • V L cfg (M *ᵥ ·) b x i := by
  have h1 : b - M *ᵥ (x + ∑ j ∈ Finset.range k, y j • V L cfg (M *ᵥ ·) b x j) =
      (b - M *ᵥ x) - ∑ j ∈ Finset.range k, y j • M *ᵥ V L cfg (M *ᵥ ·) b x j := by
    rw [mulVec_add, mulVec_sum]; simp only [mulVec_smul]; abel
  have h2 : ∀ j ∈ Finset.range k, y j • M *ᵥ V L cfg (M *ᵥ ·) b x j =
      ∑ i ∈ Finset.range (k + 1), (hes L cfg (M *ᵥ ·) b x i j * y j) • V L cfg (M *ᵥ ·) b x i := by
    intro j hj
    have hj' : j < k := by simpa using hj
    rw [show M *ᵥ V L cfg (M *ᵥ ·) b x j = _ from arnoldi_rel L cfg (M *ᵥ ·) b x j, Finset.smul_sum]
    rw [← Finset.sum_subset (s₁ := Finset.range (j + 2)) (s₂ := Finset.range (k + 1))
      (by intro i; simp; omega) (by
        intro i _ hi
        rw [hes_gt L cfg (M *ᵥ ·) b x (by simp at hi; omega), zero_mul, zero_smul])]
    exact Finset.sum_congr rfl fun i _ => by rw [smul_smul, mul_comm]
  rw [h1, Finset.sum_congr rfl h2, Finset.sum_comm]
  unfold rc
  simp only [sub_smul, Finset.sum_smul, Finset.sum_sub_distrib]
  congr 1
  rw [Finset.sum_eq_single 0]
  · simp only [e0, if_true]; exact (res_V0 L cfg (M *ᵥ ·) b x).symm
  · intro i _ hi; simp [e0, hi]
  · simp

theorem resid_sq (k : ℕ) (y : ℕ → ℝ) :
    vnorm (b - M *ᵥ (x + ∑ j ∈ Finset.range k, y j • V L cfg (M *ᵥ ·) b x j)) ^ 2 =
      ∑ i ∈ Finset.range (k + 1), rc L cfg (M *ᵥ ·) b x k y i ^ 2 := by
  rw [vnorm_sq, resid_eq]
  exact ortho_sq (ortho_V L cfg _ b x k) fun i _ h => rc_zero L cfg _ b x h

end Linear

/-- Residual coefficients after the rotations. -/
theorem rc_rots (ht : cfg.makeTriangular = true) {k : ℕ} (hp : ∀ j < k, piv L cfg A b x j ≠ 0) (y : ℕ → ℝ) :
    ∑ i ∈ Finset.range (k + 1), rc L cfg A b x k y i ^ 2 =
      ∑ i ∈ Finset.range k, ((S L cfg A b x k).g i - ∑ j ∈ Finset.range k, (S L cfg A b x k).H i j * y j) ^ 2
        + (S L cfg A b x k).rho ^ 2 := by
  rw [← rots_sqsum (fun i hi => cs_unit L cfg A b x ht (hp i hi)) (rc L cfg A b x k y)]
  have e : rots (cc L cfg A b x) (ss L cfg A b x) k (rc L cfg A b x k y) =
      fun i => (S L cfg A b x k).g i - ∑ j ∈ Finset.range k, (S L cfg A b x k).H i j * y j := by
    have h1 : rc L cfg A b x k y = e0 A b x - ∑ j ∈ Finset.range k, y j • fun i => hes L cfg A b x i j := by
      funext i; simp [rc, mul_comm]
    have h2 : rots (cc L cfg A b x) (ss L cfg A b x) k (rc L cfg A b x k y) =
        rotsL (cc L cfg A b x) (ss L cfg A b x) k (rc L cfg A b x k y) := rfl
    rw [h2, h1, map_sub, map_sum]
    simp only [map_smul]
    funext i
    rw [Pi.sub_apply, Finset.sum_apply, S_g L cfg A b x ht]
    congr 1
    refine Finset.sum_congr rfl fun j hj => ?_
    rw [Pi.smul_apply, smul_eq_mul, mul_comm]
    congr 1
    exact (congrFun (H_col L cfg A b x ht (by simpa using hj)) i).symm
  rw [e, Finset.sum_range_succ, S_rho L cfg A b x ht, sq_abs]
  dsimp only
  congr 2
  rw [Finset.sum_eq_zero, sub_zero]
  intro j hj
  have hj' : j < k := by simpa using hj
  rw [S_H_stable L cfg A b x hj', H_below L cfg A b x ht hj', zero_mul]

/-! ### Least-squares mode -/

section Lsq
variable (ht : cfg.makeTriangular = false)
include ht

theorem S_lsq_g (k : ℕ) : (S L cfg A b x k).g = e0 A b x := by
  induction k with
  | zero => rfl
  | succ k ih => rw [iter_S, if_neg (by simp [ht])]; exact ih

theorem S_lsq_H {j k : ℕ} (h : j < k) (i : ℕ) : (S L cfg A b x k).H i j = hes L cfg A b x i j := by
  rw [S_H_stable L cfg A b x h, iter_S, if_neg (by simp [ht])]
  unfold lsqStep; dsimp only; rw [S_k]; simp [setCol]

/-- The Hessenberg block of the least-squares problem. -/
noncomputable def hblock (k : ℕ) : Mat (k + 1) k ℝ := fun i j => hes L cfg A b x i j

omit ht in
theorem vnorm_rc (k : ℕ) (y : Vec k ℝ) :
    vnorm (vhead (e0 A b x) (k + 1) - hblock L cfg A b x k *ᵥ y) ^ 2 =
      ∑ i ∈ Finset.range (k + 1), rc L cfg A b x k (ofVec y) i ^ 2 := by
  rw [vnorm_sq, Finset.sum_range]
  unfold dotProduct
  refine Finset.sum_congr rfl fun i _ => ?_
  rw [← sq]
  congr 1
  simp only [Pi.sub_apply, vhead, rc, mulVec, dotProduct, hblock]
  congr 1
  rw [Finset.sum_range]
  exact Finset.sum_congr rfl fun j _ => by simp [ofVec]

theorem S_lsq_y {k : ℕ} (hk : 0 < k) : (S L cfg A b x k).y =
    ofVec (L.qr (hblock L cfg A b x k) (vhead (e0 A b x) (k + 1))) := by
  obtain ⟨k, rfl⟩ : ∃ j, k = j + 1 := ⟨k - 1, by omega⟩
  have hb : hblock L cfg A b x (k + 1) = block (setCol (S L cfg A b x k).H k fun i => hes L cfg A b x i k) (k + 2) (k + 1) := by
    funext i j
    simp only [hblock, block, setCol]
    split
    · rename_i h; rw [h]
    · rw [S_lsq_H L cfg A b x ht (by omega)]
  rw [iter_S, if_neg (by simp [ht]), hb]
  unfold lsqStep; dsimp only; rw [S_k, S_lsq_g L cfg A b x ht]

theorem S_lsq_rho (k : ℕ) : (S L cfg A b x k).rho ^ 2 =
    ∑ i ∈ Finset.range (k + 1), rc L cfg A b x k (S L cfg A b x k).y i ^ 2 := by
  cases k with
  | zero => simp [init, rc, e0]
  | succ k =>
    rw [S_lsq_y L cfg A b x ht (by omega), ← vnorm_rc]
    have hb : hblock L cfg A b x (k + 1) = block (setCol (S L cfg A b x k).H k fun i => hes L cfg A b x i k) (k + 2) (k + 1) := by
      funext i j
      simp only [hblock, block, setCol]
      split
      · rename_i h; rw [h]
      · rw [S_lsq_H L cfg A b x ht (by omega)]
    rw [iter_S, if_neg (by simp [ht]), hb]
    unfold lsqStep; dsimp only; rw [S_k, S_lsq_g L cfg A b x ht]
    rfl

end Lsq

theorem S_rho_nonneg (k : ℕ) : 0 ≤ (S L cfg A b x k).rho := by
  cases k with
  | zero => exact vnorm_nonneg _
  | succ k =>
    by_cases ht : cfg.makeTriangular = true
    · rw [S_rho L cfg A b x ht]; exact abs_nonneg _
    · rw [iter_S, if_neg ht]; exact vnorm_nonneg _

/-- The final update. -/
theorem update_real (k : ℕ) (y : ℕ → ℝ) :
    update (S L cfg A b x k) y x = x + ∑ j ∈ Finset.range k, y j • V L cfg A b x j := by
  have : ∀ m ≤ k, forUp m (fun i z => z + smulv (y i) ((S L cfg A b x k).basis i)) x =
      x + ∑ j ∈ Finset.range m, y j • V L cfg A b x j := by
    intro m
    induction m with
    | zero => intro _; simp [forUp]
    | succ m ih =>
      intro hm
      rw [forUp, ih (by omega), Finset.sum_range_succ, S_basis L cfg A b x (by omega), smulv_real, add_assoc]
  unfold update; rw [S_k]; exact this k le_rfl

end Nmpc.Gmres
