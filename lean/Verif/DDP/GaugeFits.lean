import Verif.DDP.Gauge
import Verif.DDP.CoordReg
import Verif.Library.Cholesky

/-!
# C131: the hypotheses on the factorisation and on the shift of the inputs
-/

namespace Nmpc.DDP

open Matrix

namespace Gauge
variable (U : Gauge)

theorem uu_back {k : ℕ} (A : Mat k k ℝ) : (U.R k)ᵀ * U.uu A * U.R k = U.c • A := by
  unfold uu
  rw [Matrix.mul_smul, Matrix.smul_mul, Coord.sand _ (U.orth k) (U.orth k)]

theorem uu_posDef {k : ℕ} (A : Mat k k ℝ) : (U.uu A).PosDef ↔ A.PosDef := by
  constructor
  · intro h
    rw [posDef_iff] at h ⊢
    have hb := U.uu_back A
    refine ⟨?_, fun v hv => ?_⟩
    · have h1 : U.c • Aᵀ = U.c • A := by
        rw [← transpose_smul, ← hb]
        simp only [transpose_mul, transpose_transpose, Matrix.mul_assoc]
        rw [h.1.eq]
      exact smul_right_injective _ U.c_ne h1
    · have h2 := h.2 (U.R k *ᵥ v) fun h0 => hv (by rw [← U.RtR v, h0, mulVec_zero])
      have e : (U.R k *ᵥ v) ⬝ᵥ (U.uu A *ᵥ (U.R k *ᵥ v)) = U.c * (v ⬝ᵥ (A *ᵥ v)) := by
        unfold uu
        rw [smul_mulVec, ← mulVec_mulVec, RtR, ← mulVec_mulVec, dotProduct_smul, R_dot, smul_eq_mul]
      rw [e] at h2
      exact (mul_pos_iff_of_pos_left U.pos).1 h2
  · intro h
    rw [posDef_iff] at h ⊢
    refine ⟨?_, fun v hv => ?_⟩
    · unfold uu
      rw [IsSymm, transpose_smul]
      simp only [transpose_mul, transpose_transpose, Matrix.mul_assoc]
      rw [h.1.eq]
    · have hv' : (U.R k)ᵀ *ᵥ v ≠ 0 := fun h0 => hv (by
        rw [← one_mulVec v, ← U.orth' k, ← mulVec_mulVec, h0, mulVec_zero])
      have e : v ⬝ᵥ (U.uu A *ᵥ v) = U.c * (((U.R k)ᵀ *ᵥ v) ⬝ᵥ (A *ᵥ ((U.R k)ᵀ *ᵥ v))) := by
        unfold uu
        rw [smul_mulVec, ← mulVec_mulVec, ← mulVec_mulVec, dotProduct_smul, smul_eq_mul, dotProduct_mulVec v, ← mulVec_transpose]
      rw [e]
      exact mul_pos U.pos (h.2 _ hv')

/-- **C131** The exact factorisation fits every change of units and axes. -/
theorem C131_exact : U.Fits exactLLT where
  ok A := by
    simp only [exactLLT]
    exact decide_eq_decide.2 (U.uu_posDef A)
  solve {k} A b hok := by
    have hA : A.PosDef := by simpa [exactLLT] using hok
    have hB := (U.uu_posDef A).2 hA
    have h1 := exactLLT_exact.solve_eq A b hA
    have h2 := exactLLT_exact.solve_eq (U.uu A) (U.c • (U.R k *ᵥ b)) hB
    have h3 : U.uu A *ᵥ (U.R k *ᵥ exactLLT.solve A b) = U.c • (U.R k *ᵥ b) := by
      unfold uu
      rw [smul_mulVec, ← mulVec_mulVec, RtR, ← mulVec_mulVec, h1]
    have hdet := (Matrix.isUnit_iff_isUnit_det _).1 hB.isUnit
    exact Matrix.mulVec_injective_of_isUnit hB.isUnit (h2.trans h3.symm)

end Gauge

end Nmpc.DDP

namespace Nmpc.Library

open Matrix DDP

variable {n : ℕ}

/-- After `k` steps on `c M` instead of `M`. -/
def Scaled (c : ℝ) (k : ℕ) (A B : Mat n n ℝ) : Prop :=
  ∀ i j, B i j = if (j : ℕ) < k ∧ j ≤ i then √c * A i j else c * A i j

theorem cholStep_scaled {c : ℝ} (hc : 0 < c) {k : Fin n} {A B : Mat n n ℝ} (h : Scaled c k A B) :
    (cholStep k A = none ∧ cholStep k B = none) ∨
      ∃ A' B', cholStep k A = some A' ∧ cholStep k B = some B' ∧ Scaled c (k + 1) A' B' := by
  have hss : √c * √c = c := Real.mul_self_sqrt hc.le
  have hs0 : 0 < √c := Real.sqrt_pos.2 hc
  have hsum : ∀ i, k ≤ i → B i k - (∑ l : Fin n, if l < k then B i l * B k l else 0) =
      c * (A i k - ∑ l : Fin n, if l < k then A i l * A k l else 0) := by
    intro i hi
    rw [h i k, if_neg (by simp), mul_sub, Finset.mul_sum]
    congr 1
    refine Finset.sum_congr rfl fun l _ => ?_
    split
    · rename_i hl
      rw [h i l, h k l, if_pos ⟨hl, hl.le.trans hi⟩, if_pos ⟨hl, hl.le⟩]
      rw [show √c * A i l * (√c * A k l) = √c * √c * (A i l * A k l) by ring, hss]
    · rw [mul_zero]
  rw [cholStep_real, cholStep_real, hsum k le_rfl]
  set x := A k k - ∑ l : Fin n, if l < k then A k l * A k l else 0 with hx
  by_cases hx0 : x ≤ 0
  · left
    exact ⟨if_pos hx0, if_pos (mul_nonpos_of_nonneg_of_nonpos hc.le hx0)⟩
  · right
    have hcx : ¬ c * x ≤ 0 := by rw [not_le] at hx0 ⊢; exact mul_pos hc hx0
    have hsx : 0 < √x := Real.sqrt_pos.2 (not_le.1 hx0)
    rw [if_neg hx0, if_neg hcx]
    refine ⟨_, _, rfl, rfl, fun i j => ?_⟩
    dsimp only
    rw [Real.sqrt_mul hc.le]
    by_cases hj : j = k
    · subst hj
      rw [if_pos rfl, if_pos rfl]
      by_cases hi : i = j
      · subst hi
        simp
      · rw [if_neg hi, if_neg hi]
        by_cases hlt : j < i
        · rw [if_pos hlt, if_pos hlt, if_pos ⟨Nat.lt_succ_self _, hlt.le⟩, hsum i hlt.le]
          rw [div_eq_iff (by positivity)]
          rw [show √c * ((A i j - ∑ l : Fin n, if l < j then A i l * A j l else 0) / √x) * (√c * √x) =
            (√c * √c) * (A i j - ∑ l : Fin n, if l < j then A i l * A j l else 0) * (√x / √x) by ring, hss, div_self hsx.ne', mul_one]
        · rw [if_neg hlt, if_neg hlt, if_neg (fun hh => hlt (lt_of_le_of_ne hh.2 (Ne.symm hi))), h i j, if_neg (by simp)]
    · rw [if_neg hj, if_neg hj, h i j]
      have hne : (j : ℕ) ≠ k := fun e => hj (Fin.ext e)
      have : ((j : ℕ) < k ∧ j ≤ i) ↔ ((j : ℕ) < k + 1 ∧ j ≤ i) := by
        constructor
        · rintro ⟨a, b⟩; exact ⟨by omega, b⟩
        · rintro ⟨a, b⟩; exact ⟨by omega, b⟩
      simp only [this]

theorem cholLoop_scaled {c : ℝ} (hc : 0 < c) (M : Mat n n ℝ) {k : ℕ} (hk : k ≤ n) :
    (cholLoop M k = none ∧ cholLoop (c • M) k = none) ∨
      ∃ A B, cholLoop M k = some A ∧ cholLoop (c • M) k = some B ∧ Scaled c k A B := by
  induction k with
  | zero => exact Or.inr ⟨M, c • M, rfl, rfl, fun i j => by rw [if_neg (by omega)]; rfl⟩
  | succ k ih =>
    rcases ih (by omega) with ⟨h1, h2⟩ | ⟨A, B, h1, h2, h3⟩
    · left
      constructor
      · show (cholLoop M k).bind _ = none
        rw [h1]; rfl
      · show (cholLoop (c • M) k).bind _ = none
        rw [h2]; rfl
    · have e1 : cholLoop M (k + 1) = cholStep ⟨k, by omega⟩ A := by
        show (cholLoop M k).bind _ = _
        rw [h1, Option.bind_some, dif_pos (by omega)]
      have e2 : cholLoop (c • M) (k + 1) = cholStep ⟨k, by omega⟩ B := by
        show (cholLoop (c • M) k).bind _ = _
        rw [h2, Option.bind_some, dif_pos (by omega)]
      rw [e1, e2]
      exact cholStep_scaled (k := ⟨k, by omega⟩) hc h3

/-- After a successful factorisation the two triangular solves invert `L Lᵀ`, whatever the upper triangle contains. -/
theorem eigen_solve_factor {M A : Mat n n ℝ} (hA : chol M = some A) (b : Vec n ℝ) :
    (lower A * (lower A)ᵀ) *ᵥ (eigenLLT : LLT ℝ).solve M b = b := by
  have hd := (cholLoop_inv le_rfl hA).pos
  have e : (eigenLLT : LLT ℝ).solve M b = Gmres.backSub (lower A)ᵀ (forwardSub A b) := by
    simp only [eigenLLT, hA]
    exact backSub_congr (fun i j hij => by simp [lower, hij]) _
  rw [e, ← mulVec_mulVec, Gmres.backSub_exact, forwardSub_exact A b fun i => (hd i i.isLt).ne']
  · intro i j hij
    simp [lower, hij.not_ge]
  · intro i
    simp only [transpose_apply, lower, le_refl, if_true]
    exact (hd i i.isLt).ne'

theorem factor_injective {M A : Mat n n ℝ} (hA : chol M = some A) {v w : Vec n ℝ}
    (h : (lower A * (lower A)ᵀ) *ᵥ v = (lower A * (lower A)ᵀ) *ᵥ w) : v = w := by
  have hd := (cholLoop_inv le_rfl hA).pos
  have h0 : (lower A * (lower A)ᵀ) *ᵥ (v - w) = 0 := by rw [mulVec_sub, h, sub_self]
  have h1 : ((lower A)ᵀ *ᵥ (v - w)) ⬝ᵥ ((lower A)ᵀ *ᵥ (v - w)) = 0 := by
    have := congrArg (fun z => (v - w) ⬝ᵥ z) h0
    simp only [← mulVec_mulVec, dotProduct_zero] at this
    rw [dotProduct_mulVec (v - w), ← mulVec_transpose] at this
    exact this
  exact sub_eq_zero.1 (lower_transpose_injective (fun j => hd j j.isLt) (dotProduct_self_eq_zero.1 h1))

/-- **C131** Eigen's algorithm in exact arithmetic fits every change of the unit of the cost, also on matrices that are not symmetric. -/
theorem C131_eigen (U : Gauge) (hR : ∀ k, U.R k = 1) : U.Fits (eigenLLT : LLT ℝ) := by
  have huu : ∀ {k : ℕ} (A : Mat k k ℝ), U.uu A = U.c • A := by
    intro k A
    rw [Gauge.uu, hR, Matrix.one_mul, transpose_one, Matrix.mul_one]
  refine ⟨fun {k} A => ?_, fun {k} A b hok => ?_⟩
  · show (chol (U.uu A)).isSome = (chol A).isSome
    rw [huu]
    rcases cholLoop_scaled U.pos A le_rfl with ⟨h1, h2⟩ | ⟨_, _, h1, h2, _⟩
    · rw [chol, chol, h1, h2]
    · rw [chol, chol, h1, h2]; rfl
  · rw [huu, hR, one_mulVec, one_mulVec]
    rcases cholLoop_scaled U.pos A le_rfl with ⟨h1, _⟩ | ⟨X, Y, h1, h2, h3⟩
    · have : (chol A).isSome = true := hok
      rw [chol, h1] at this
      cases this
    · have hX : chol A = some X := h1
      have hY : chol (U.c • A) = some Y := h2
      have hlow : lower Y = √U.c • lower X := by
        ext i j
        show (if j ≤ i then Y i j else 0) = √U.c * (if j ≤ i then X i j else 0)
        split
        · rename_i hij
          rw [h3 i j, if_pos ⟨j.isLt, hij⟩]
        · rw [mul_zero]
      have hprod : lower Y * (lower Y)ᵀ = U.c • (lower X * (lower X)ᵀ) := by
        rw [hlow, transpose_smul, Matrix.smul_mul, Matrix.mul_smul, smul_smul, Real.mul_self_sqrt U.pos.le]
      refine factor_injective hY ?_
      rw [eigen_solve_factor hY, hprod, smul_mulVec, eigen_solve_factor hX]

end Nmpc.Library

namespace Nmpc.DDP

open Matrix

/-- The shift of the vertical, centroidal and bipedal examples commutes with rotations of the input axes. -/
theorem C131_shiftRepeat (U : Gauge) (us : List (Σ k : ℕ, Vec k ℝ)) :
    shiftRepeat (us.map U.inp) = (shiftRepeat us).map (List.map U.inp) := by
  unfold shiftRepeat
  cases us with
  | nil => rfl
  | cons u rest =>
    simp only [List.map_cons, List.getLast?_map]
    cases rest.getLast? with
    | none => rfl
    | some v => simp [Res.map]

theorem C131_shiftDim (U : Gauge) (dim : ℕ) (us : List (Σ k : ℕ, Vec k ℝ)) :
    shiftDim dim (us.map U.inp) = (shiftDim dim us).map (List.map U.inp) := by
  unfold shiftDim
  cases us with
  | nil => rfl
  | cons u rest =>
    simp only [List.map_cons, List.getLast?_map]
    cases rest.getLast? with
    | none => rfl
    | some v =>
      have hz : U.inp ⟨dim, fun _ => 0⟩ = ⟨dim, fun _ => 0⟩ :=
        congrArg (Sigma.mk dim) (mulVec_zero (U.R dim))
      simp only [Option.map_some, Res.map, Res.bind_ok, List.map_append, List.map_cons, List.map_nil]
      rw [show (U.inp v).1 = v.1 from rfl]
      split
      · rfl
      · rw [hz]

/-- A change of the unit of the cost only. -/
def Gauge.cost (c : ℝ) (hc : 0 < c) : Gauge := ⟨c, hc, fun _ => 1, fun _ => by rw [transpose_one, Matrix.one_mul]⟩

/-- A change of the unit of the cost by 1000 with the two inputs turned by the angle with cosine 3/5. -/
noncomputable example : Gauge :=
  ⟨1000, by norm_num, fun k => if h : k = 2 then h ▸ !![3 / 5, -4 / 5; 4 / 5, 3 / 5] else 1, fun k => by
    by_cases h : k = 2
    · subst h
      simp only [dite_true]
      ext i j; fin_cases i <;> fin_cases j <;> norm_num [Matrix.mul_apply, Fin.sum_univ_two]
    · simp [h]⟩

end Nmpc.DDP
