import Verif.CGMRES.GmresExamples
import Verif.Base.LLT
import Verif.Base.LinAlg

/-!
# The Cholesky factorisation used by the DDP solver and BoxQP

`Eigen::LLT` is not part of the repository; the theorems about BoxQP and DDP are stated for every implementation that meets the
contract `LLT.Exact`.  This file contains the algorithm of Eigen's unblocked `llt_inplace<Scalar, Lower>` with forward and back
substitution, in any arithmetic, and shows that in exact arithmetic it meets the contract.  (Eigen's blocked variant for
matrices of size 32 and more performs the same operations in a different order; the second triangular solve is written by columns
instead of rows.)
-/

namespace Nmpc.Library

open Matrix

section Model
variable {α : Type} [Add α] [Sub α] [Mul α] [Div α] [Neg α] [Zero α] [One α] [FOps α] {n : ℕ}

/-- Product of the first `k` entries of the rows `i` and `k`. -/
def rowDot (A : Mat n n α) (i k : Fin n) : α :=
  FOps.dot (fun l : Fin k.val => A i (l.castLE k.isLt.le)) (fun l : Fin k.val => A k (l.castLE k.isLt.le))

/-- Step `k` of the in-place factorisation: `x = A(k,k) - ‖A10‖²`; if `x <= 0` the factorisation fails, otherwise
`A(k,k) = sqrt(x)`, `A21 -= A20 * A10ᵀ`, `A21 /= sqrt(x)`. -/
def cholStep (k : Fin n) (A : Mat n n α) : Option (Mat n n α) :=
  let x := if (k : ℕ) = 0 then A k k else A k k - rowDot A k k
  if leb x 0 then none
  else some fun i j =>
    if j = k then
      if i = k then FOps.sqrt x
      else if k < i then (if (k : ℕ) = 0 then A i k else A i k - rowDot A i k) / FOps.sqrt x else A i k
    else A i j

/-- The first `k` steps. -/
def cholLoop (M : Mat n n α) : ℕ → Option (Mat n n α)
  | 0 => some M
  | k + 1 => (cholLoop M k).bind fun A => if h : k < n then cholStep ⟨k, h⟩ A else some A

/-- The factorisation: the lower triangle of the result is the Cholesky factor. -/
def chol (M : Mat n n α) : Option (Mat n n α) := cholLoop M n

/-- Forward substitution by columns (`matrixL().solveInPlace(b)`). -/
def forwardSub (A : Mat n n α) (b : Vec n α) : Vec n α :=
  forUp n (fun i r => if h : i < n then
      if eqb (r ⟨i, h⟩) 0 then r
      else
        let yi := r ⟨i, h⟩ / A ⟨i, h⟩ ⟨i, h⟩
        fun j => if (j : ℕ) = i then yi else if i < (j : ℕ) then r j - yi * A j ⟨i, h⟩ else r j
    else r) b

/-- `LLT` by this algorithm.  (If the factorisation fails the code never solves; the value is then irrelevant.) -/
def eigenLLT : LLT α where
  ok M := (chol M).isSome
  solve M b := match chol M with
    | some A => Gmres.backSub (fun i j => A j i) (forwardSub A b)
    | none => b

end Model

variable {n : ℕ}

theorem sum_castLE {n : ℕ} (k : Fin n) (f : Fin n → ℝ) : ∑ l : Fin k.val, f (l.castLE k.isLt.le) = ∑ l : Fin n, if l < k then f l else 0 := by
  rw [← Finset.sum_filter]
  refine Finset.sum_bij' (fun l _ => l.castLE k.isLt.le) (fun l hl => ⟨l, by simpa using hl⟩) ?_ ?_ ?_ ?_ ?_
  · intro l _; exact Finset.mem_filter.2 ⟨Finset.mem_univ _, l.isLt⟩
  · intro l _; simp
  · intro l _; rfl
  · intro l _; rfl
  · intro l _; rfl

theorem rowDot_real (A : Mat n n ℝ) (i k : Fin n) : rowDot A i k = ∑ l : Fin n, if l < k then A i l * A k l else 0 := by
  rw [← sum_castLE k fun l => A i l * A k l]
  rfl

/-- Invariant after `k` steps: the first `k` columns of the lower triangle are those of the factor. -/
structure Inv (M : Mat n n ℝ) (k : ℕ) (A : Mat n n ℝ) : Prop where
  pos : ∀ j : Fin n, (j : ℕ) < k → 0 < A j j
  prod : ∀ i j : Fin n, (j : ℕ) < k → j ≤ i → M i j = ∑ l : Fin n, if l ≤ j then A i l * A j l else 0
  rest : ∀ i j : Fin n, k ≤ (j : ℕ) → A i j = M i j

theorem cholStep_real (k : Fin n) (A : Mat n n ℝ) :
    cholStep k A = if A k k - (∑ l : Fin n, if l < k then A k l * A k l else 0) ≤ 0 then none
      else some fun i j => if j = k then
        if i = k then √(A k k - ∑ l : Fin n, if l < k then A k l * A k l else 0)
        else if k < i then (A i k - ∑ l : Fin n, if l < k then A i l * A k l else 0) /
          √(A k k - ∑ l : Fin n, if l < k then A k l * A k l else 0) else A i k
      else A i j := by
  have e : ∀ i, (if (k : ℕ) = 0 then A i k else A i k - rowDot A i k) = A i k - ∑ l : Fin n, if l < k then A i l * A k l else 0 := by
    intro i
    rw [← rowDot_real]
    split
    · rename_i h
      have : rowDot A i k = 0 := by
        rw [rowDot_real]
        exact Finset.sum_eq_zero fun l _ => if_neg (by rw [Fin.lt_def, h]; omega)
      rw [this, sub_zero]
    · rfl
  unfold cholStep
  simp only [e, leb_real, sqrt_real]
  rfl

theorem inv_step {M : Mat n n ℝ} {k : Fin n} {A A' : Mat n n ℝ} (hI : Inv M k A) (h : cholStep k A = some A') : Inv M (k + 1) A' := by
  rw [cholStep_real] at h
  split at h
  · cases h
  · rename_i hx
    rw [not_le] at hx
    set x := A k k - ∑ l : Fin n, if l < k then A k l * A k l else 0 with hxd
    have hs : 0 < √x := Real.sqrt_pos.2 hx
    have hss : √x * √x = x := Real.mul_self_sqrt hx.le
    have hA := Option.some.inj h
    have hne : ∀ i j, j ≠ k → A' i j = A i j := fun i j hj => by rw [← hA]; simp [hj]
    have hkk : A' k k = √x := by rw [← hA]; simp
    have hik : ∀ i, k < i → A' i k = (A i k - ∑ l : Fin n, if l < k then A i l * A k l else 0) / √x := fun i hi => by
      rw [← hA]; simp [hi, hi.ne']
    refine ⟨fun j hj => ?_, fun i j hj hji => ?_, fun i j hj => ?_⟩
    · by_cases hjk : j = k
      · rw [hjk, hkk]; exact hs
      · rw [hne j j hjk]
        exact hI.pos j (by have : (j : ℕ) ≠ k := fun e => hjk (Fin.ext e); omega)
    · by_cases hjk : j = k
      · subst hjk
        have hsplit : ∀ i : Fin n, (∑ l : Fin n, if l ≤ j then A' i l * A' j l else 0) =
            (∑ l : Fin n, if l < j then A i l * A j l else 0) + A' i j * A' j j := by
          intro i
          have : ∀ l : Fin n, (if l ≤ j then A' i l * A' j l else 0) =
              (if l < j then A i l * A j l else 0) + if l = j then A' i j * A' j j else 0 := by
            intro l
            rcases lt_trichotomy l j with h1 | h1 | h1
            · rw [if_pos h1.le, if_pos h1, if_neg h1.ne, hne _ _ h1.ne, hne _ _ h1.ne, add_zero]
            · subst h1; simp
            · rw [if_neg (not_le.2 h1), if_neg h1.not_gt, if_neg h1.ne', add_zero]
          rw [Finset.sum_congr rfl fun l _ => this l, Finset.sum_add_distrib, Finset.sum_ite_eq' Finset.univ j]
          simp
        rw [hsplit, hkk, ← hI.rest i j le_rfl]
        rcases hji.eq_or_lt with h1 | h1
        · subst h1
          rw [hkk, hss, hxd]; ring
        · rw [hik i h1, div_mul_cancel₀ _ hs.ne']; ring
      · have hj' : (j : ℕ) < k := by have : (j : ℕ) ≠ k := fun e => hjk (Fin.ext e); omega
        rw [hI.prod i j hj' hji]
        refine Finset.sum_congr rfl fun l _ => ?_
        split
        · rename_i hl
          have : l ≠ k := fun e => by rw [e, Fin.le_def] at hl; omega
          rw [hne _ _ this, hne _ _ this]
        · rfl
    · rw [hne i j (fun e => by rw [e] at hj; omega)]
      exact hI.rest i j (by omega)

theorem pivot_pos {M : Mat n n ℝ} (hM : M.PosDef) {k : Fin n} {A : Mat n n ℝ} (hI : Inv M k A) :
    0 < A k k - ∑ l : Fin n, if l < k then A k l * A k l else 0 := by
  obtain ⟨hsym, hpos⟩ := posDef_iff.1 hM
  set x := A k k - ∑ l : Fin n, if l < k then A k l * A k l else 0 with hxd
  -- a vector at which the quadratic form has the value of the pivot
  let T : Mat n n ℝ := fun i j => if i < k ∧ j < k then (if i ≤ j then A j i else 0) else if i = j then 1 else 0
  let c : Vec n ℝ := fun i => if i < k then -A k i else if i = k then 1 else 0
  obtain ⟨v, hv⟩ : ∃ v, T *ᵥ v = c := by
    refine ⟨Gmres.backSub T c, Gmres.backSub_exact T c (fun i j hij => ?_) (fun i => ?_)⟩
    · show (if i < k ∧ j < k then (if i ≤ j then A j i else 0) else if i = j then 1 else 0) = 0
      rw [if_neg hij.not_ge, if_neg hij.ne', ite_self]
    · show (if i < k ∧ i < k then (if i ≤ i then A i i else 0) else if i = i then 1 else 0) ≠ 0
      split
      · rename_i h
        rw [if_pos le_rfl]
        exact (hI.pos i h.1).ne'
      · simp
  have hvge : ∀ i, k ≤ i → v i = if i = k then 1 else 0 := by
    intro i hi
    have h1 := congrFun hv i
    have h2 : (T *ᵥ v) i = v i := by
      simp only [mulVec, dotProduct]
      rw [Finset.sum_eq_single i]
      · simp [T, hi.not_gt]
      · intro j _ hj
        simp [T, hi.not_gt, hj.symm]
      · simp
    rw [← h2, h1]
    simp [c, hi.not_gt]
  have hvk : v k = 1 := by rw [hvge k le_rfl, if_pos rfl]
  have hvl : ∀ l, l < k → (∑ i : Fin n, if l ≤ i then v i * A i l else 0) = 0 := by
    intro l hl
    have h1 := congrFun hv l
    have h2 : ∀ i : Fin n, (if l ≤ i then v i * A i l else 0) = T l i * v i + if i = k then A k l else 0 := by
      intro i
      rcases lt_trichotomy i k with h3 | h3 | h3
      · rw [if_neg h3.ne, add_zero]
        simp only [T, hl, h3, and_self, if_true]
        split <;> ring
      · rw [h3]
        simp [T, hvk, hl.le, hl.ne]
      · rw [if_neg h3.ne', hvge i h3.le, if_neg h3.ne']
        simp
    rw [Finset.sum_congr rfl fun i _ => h2 i, Finset.sum_add_distrib, Finset.sum_ite_eq' Finset.univ k]
    have h3 : ∑ i, T l i * v i = c l := h1
    rw [h3]
    simp [c, hl]
  -- the factorisation of the leading block
  let B : Mat n n ℝ := fun i l => if l < k ∧ l ≤ i then A i l else 0
  have hfac : ∀ i j, i ≤ k → j ≤ k → M i j = (∑ l, B i l * B j l) + if i = k ∧ j = k then x else 0 := by
    have key : ∀ i j, i ≤ k → j ≤ i → M i j = (∑ l, B i l * B j l) + if i = k ∧ j = k then x else 0 := by
      intro i j hi hji
      rcases (hji.trans hi).eq_or_lt with h1 | h1
      · have h2 : i = k := le_antisymm hi (h1 ▸ hji)
        subst h1
        subst h2
        rw [if_pos ⟨rfl, rfl⟩, hxd, ← hI.rest i i le_rfl]
        have : ∀ l, B i l * B i l = if l < i then A i l * A i l else 0 := by
          intro l
          simp only [B]
          by_cases h : l < i
          · rw [if_pos ⟨h, h.le⟩, if_pos h]
          · rw [if_neg (fun h' => h h'.1), if_neg h, mul_zero]
        rw [Finset.sum_congr rfl fun l _ => this l]
        ring
      · rw [if_neg (fun h => h1.ne h.2), add_zero, hI.prod i j h1 hji]
        refine Finset.sum_congr rfl fun l _ => ?_
        simp only [B]
        by_cases h : l ≤ j
        · rw [if_pos h, if_pos ⟨h.trans_lt h1, h.trans hji⟩, if_pos ⟨h.trans_lt h1, h⟩]
        · rw [if_neg h, if_neg (c := l < k ∧ l ≤ j) (fun h' => h h'.2), mul_zero]
    intro i j hi hj
    rcases le_total j i with h | h
    · exact key i j hi h
    · rw [← hsym.apply i j, key j i hj h]
      congr 1
      · exact Finset.sum_congr rfl fun l _ => mul_comm _ _
      · simp only [and_comm]
  have hB : ∀ l, ∑ i, v i * B i l = 0 := by
    intro l
    by_cases h : l < k
    · rw [← hvl l h]
      refine Finset.sum_congr rfl fun i _ => ?_
      simp only [B]
      by_cases h' : l ≤ i
      · rw [if_pos ⟨h, h'⟩, if_pos h']
      · rw [if_neg (fun e => h' e.2), if_neg h', mul_zero]
    · refine Finset.sum_eq_zero fun i _ => ?_
      simp only [B]
      rw [if_neg (fun e => h e.1), mul_zero]
  have hq : v ⬝ᵥ M *ᵥ v = x := by
    have e1 : v ⬝ᵥ M *ᵥ v = ∑ i, ∑ j, v i * v j * ((∑ l, B i l * B j l) + if i = k ∧ j = k then x else 0) := by
      simp only [dotProduct, mulVec, Finset.mul_sum]
      refine Finset.sum_congr rfl fun i _ => Finset.sum_congr rfl fun j _ => ?_
      by_cases hi : i ≤ k
      · by_cases hj : j ≤ k
        · rw [hfac i j hi hj]
          ring
        · rw [hvge j (not_le.1 hj).le, if_neg (fun e => hj e.le)]
          ring
      · rw [hvge i (not_le.1 hi).le, if_neg (fun e => hi e.le)]
        ring
    have e2 : ∑ i, ∑ j, v i * v j * ∑ l, B i l * B j l = 0 := by
      have : ∀ i, ∑ j, v i * v j * ∑ l, B i l * B j l = ∑ l, v i * B i l * ∑ j, v j * B j l := by
        intro i
        simp only [Finset.mul_sum]
        rw [Finset.sum_comm]
        exact Finset.sum_congr rfl fun l _ => Finset.sum_congr rfl fun j _ => by ring
      simp only [this, hB, mul_zero, Finset.sum_const_zero]
    have e3 : ∑ i, ∑ j, v i * v j * (if i = k ∧ j = k then x else 0) = x := by
      rw [Finset.sum_eq_single k, Finset.sum_eq_single k]
      · simp [hvk]
      · intro j _ hj; simp [hj]
      · simp
      · intro i _ hi; exact Finset.sum_eq_zero fun j _ => by simp [hi]
      · simp
    rw [e1]
    simp only [mul_add, Finset.sum_add_distrib]
    rw [e3, e2, zero_add]
  rw [← hq]
  exact hpos v fun h => by rw [h] at hvk; exact zero_ne_one hvk

theorem cholLoop_inv {M A : Mat n n ℝ} {k : ℕ} (hk : k ≤ n) (h : cholLoop M k = some A) : Inv M k A := by
  induction k generalizing A with
  | zero =>
    obtain rfl := Option.some.inj h
    exact ⟨fun _ h => by omega, fun _ _ h => by omega, fun _ _ _ => rfl⟩
  | succ k ih =>
    obtain ⟨A0, h0, h1⟩ := Option.bind_eq_some_iff.1 h
    rw [dif_pos (by omega)] at h1
    exact inv_step (k := ⟨k, by omega⟩) (ih (by omega) h0) h1

theorem cholLoop_posDef {M : Mat n n ℝ} (hM : M.PosDef) {k : ℕ} (hk : k ≤ n) : ∃ A, cholLoop M k = some A := by
  induction k with
  | zero => exact ⟨M, rfl⟩
  | succ k ih =>
    obtain ⟨A0, h0⟩ := ih (by omega)
    have hp := pivot_pos hM (k := ⟨k, by omega⟩) (cholLoop_inv (by omega) h0)
    have h1 : cholLoop M (k + 1) = cholStep ⟨k, by omega⟩ A0 := by
      show (cholLoop M k).bind _ = _
      rw [h0, Option.bind_some, dif_pos (by omega)]
    rw [h1, cholStep_real, if_neg (not_le.2 hp)]
    exact ⟨_, rfl⟩

/-- The lower triangle of a matrix. -/
def lower (A : Mat n n ℝ) : Mat n n ℝ := fun i j => if j ≤ i then A i j else 0

theorem chol_factor {M A : Mat n n ℝ} (hM : M.IsSymm) (h : chol M = some A) : lower A * (lower A)ᵀ = M := by
  have hI := cholLoop_inv le_rfl h
  have key : ∀ i j, j ≤ i → (lower A * (lower A)ᵀ) i j = M i j := by
    intro i j hji
    rw [mul_apply, hI.prod i j j.isLt hji]
    refine Finset.sum_congr rfl fun l _ => ?_
    simp only [lower, transpose_apply]
    by_cases h : l ≤ j
    · rw [if_pos h, if_pos (h.trans hji), if_pos h]
    · simp only [if_neg h, mul_zero]
  ext i j
  rcases le_total j i with h | h
  · exact key i j h
  · rw [← hM.apply i j, ← key j i h, mul_apply, mul_apply]
    exact Finset.sum_congr rfl fun l _ => mul_comm _ _

theorem lower_transpose_injective {A : Mat n n ℝ} (hA : ∀ j, 0 < A j j) {v : Vec n ℝ} (h : (lower A)ᵀ *ᵥ v = 0) : v = 0 := by
  have : ∀ m : ℕ, ∀ i : Fin n, n - 1 - i ≤ m → v i = 0 := by
    intro m
    induction m with
    | zero =>
      intro i hi
      have := congrFun h i
      simp only [mulVec, dotProduct, transpose_apply, lower, Pi.zero_apply] at this
      rw [Finset.sum_eq_single i] at this
      · simpa [(hA i).ne'] using this
      · intro j _ hj
        rw [if_neg (fun hle => hj (le_antisymm (by rw [Fin.le_def]; omega) hle)), zero_mul]
      · simp
    | succ m ih =>
      intro i hi
      have := congrFun h i
      simp only [mulVec, dotProduct, transpose_apply, lower, Pi.zero_apply] at this
      rw [Finset.sum_eq_single i] at this
      · simpa [(hA i).ne'] using this
      · intro j _ hj
        by_cases hle : i ≤ j
        · have hlt := lt_of_le_of_ne hle (Ne.symm hj)
          rw [ih j (by rw [Fin.lt_def] at hlt; omega), mul_zero]
        · rw [if_neg hle, zero_mul]
      · simp
  funext i
  exact this n i (by omega)

theorem chol_posDef {M A : Mat n n ℝ} (hM : M.IsSymm) (h : chol M = some A) : M.PosDef := by
  have hI := cholLoop_inv le_rfl h
  refine posDef_iff.2 ⟨hM, fun v hv => ?_⟩
  rw [← chol_factor hM h, ← mulVec_mulVec, dotProduct_mulVec, ← mulVec_transpose]
  refine lt_of_le_of_ne (dot_self_nonneg _) fun h0 => hv ?_
  exact lower_transpose_injective (fun j => hI.pos j j.isLt) (dotProduct_self_eq_zero.1 h0.symm)

/-! ## Triangular solves -/

theorem backSub_congr {k : ℕ} {U U' : Mat k k ℝ} (h : ∀ i j, i ≤ j → U i j = U' i j) (g : Vec k ℝ) : Gmres.backSub U g = Gmres.backSub U' g := by
  unfold Gmres.backSub
  congr 1
  funext i r
  split
  · rename_i hi
    split
    · rfl
    · funext j
      rw [h ⟨i, hi⟩ ⟨i, hi⟩ le_rfl]
      split
      · rfl
      · split
        · rename_i hj
          rw [h j ⟨i, hi⟩ (by rw [Fin.le_def]; exact hj.le)]
        · rfl
  · rfl

theorem forwardSub_exact {k : ℕ} (A : Mat k k ℝ) (b : Vec k ℝ) (hd : ∀ i, A i i ≠ 0) : lower A *ᵥ forwardSub A b = b := by
  have key := forUp_invariant (n := k) (s := b)
    (body := fun i r => if h : i < k then
      if eqb (r ⟨i, h⟩) (0 : ℝ) then r
      else
        let yi := r ⟨i, h⟩ / A ⟨i, h⟩ ⟨i, h⟩
        fun j => if (j : ℕ) = i then yi else if i < (j : ℕ) then r j - yi * A j ⟨i, h⟩ else r j
    else r)
    (fun m (r : Vec k ℝ) => (∀ j : Fin k, m ≤ (j : ℕ) → r j = b j - ∑ i : Fin k, if (i : ℕ) < m then lower A j i * r i else 0) ∧
      ∀ j : Fin k, (j : ℕ) < m → ∑ i : Fin k, (if (i : ℕ) < m then lower A j i * r i else 0) = b j)
    ⟨by intro j _
        rw [Finset.sum_eq_zero, sub_zero]
        intro i _; rw [if_neg (by omega)],
     by intro j hj; omega⟩
    (by
      rintro m r hm ⟨h1, h2⟩
      rw [dif_pos hm]
      set i₀ : Fin k := ⟨m, hm⟩ with hi₀
      set r' : Vec k ℝ := fun j => if (j : ℕ) = m then r i₀ / A i₀ i₀
        else if m < (j : ℕ) then r j - r i₀ / A i₀ i₀ * A j i₀ else r j with hr'
      have e : (if eqb (r i₀) (0 : ℝ) = true then r else
          let yi := r i₀ / A i₀ i₀
          fun j => if (j : ℕ) = m then yi else if m < (j : ℕ) then r j - yi * A j i₀ else r j) = r' := by
        split
        · rename_i h0
          have h0 : r i₀ = 0 := by simpa using h0
          funext j
          rw [hr']; dsimp only
          split
          · rename_i hj
            have : j = i₀ := Fin.ext hj
            rw [this, h0, zero_div]
          · split
            · rw [h0]; ring
            · rfl
        · rfl
      rw [e]
      have hsplit : ∀ j : Fin k, (∑ i : Fin k, if (i : ℕ) < m + 1 then lower A j i * r' i else 0) =
          lower A j i₀ * r' i₀ + ∑ i : Fin k, if (i : ℕ) < m then lower A j i * r i else 0 := by
        intro j
        have : ∀ i : Fin k, (if (i : ℕ) < m + 1 then lower A j i * r' i else 0) =
            (if i = i₀ then lower A j i₀ * r' i₀ else 0) + if (i : ℕ) < m then lower A j i * r i else 0 := by
          intro i
          by_cases hi : i = i₀
          · have hv : (i : ℕ) = m := by rw [hi, hi₀]
            rw [if_pos (by omega), if_pos hi, if_neg (by omega), hi, add_zero]
          · have hne : (i : ℕ) ≠ m := fun h => hi (Fin.ext h)
            rw [if_neg hi, zero_add]
            by_cases hmi : (i : ℕ) < m
            · rw [if_pos hmi, if_pos (by omega), hr']
              simp only [hne, if_false, show ¬ m < (i : ℕ) by omega]
            · rw [if_neg hmi, if_neg (by omega)]
        rw [Finset.sum_congr rfl fun i _ => this i, Finset.sum_add_distrib, Finset.sum_ite_eq' Finset.univ i₀]
        simp
      have hri : r' i₀ = r i₀ / A i₀ i₀ := by rw [hr', hi₀]; simp
      have hrm := h1 i₀ (by rw [hi₀])
      have hlow : ∀ j : Fin k, m ≤ (j : ℕ) → lower A j i₀ = A j i₀ := fun j hj => if_pos (by rw [Fin.le_def]; exact hj)
      constructor
      · intro j hj
        rw [hsplit, hri, hlow j (by omega)]
        have : r' j = r j - r i₀ / A i₀ i₀ * A j i₀ := by
          rw [hr']; simp only [show (j : ℕ) ≠ m by omega, if_false, show m < (j : ℕ) by omega, if_true]
        rw [this, h1 j (by omega)]; ring
      · intro j hj
        rw [hsplit]
        by_cases hjm : j = i₀
        · rw [hjm, hri, hlow i₀ le_rfl, mul_div_cancel₀ _ (hd i₀), hrm]; ring
        · have : (j : ℕ) ≠ m := fun h => hjm (Fin.ext h)
          have hz : lower A j i₀ = 0 := if_neg (by rw [Fin.le_def, hi₀]; change ¬ m ≤ (j : ℕ); omega)
          rw [hz, zero_mul, zero_add]
          exact h2 j (by omega))
  funext j
  have h := key.2 j j.isLt
  simp only [Fin.is_lt, if_true] at h
  exact h

/-- **C75**: in exact arithmetic the Cholesky factorisation with its two triangular solves meets the contract: on symmetric matrices
it succeeds exactly if the matrix is positive definite, and then it solves the linear system. -/
theorem C75_cholesky : (eigenLLT : LLT ℝ).Exact where
  ok_iff {n} M hM := by
    constructor
    · intro h
      obtain ⟨A, hA⟩ := Option.isSome_iff_exists.1 (show (chol M).isSome = true from h)
      exact chol_posDef hM hA
    · intro h
      obtain ⟨A, hA⟩ := cholLoop_posDef h le_rfl
      show (chol M).isSome = true
      rw [chol, hA]
      rfl
  solve_eq {n} M b hM := by
    have hsym := (posDef_iff.1 hM).1
    obtain ⟨A, hA⟩ := cholLoop_posDef hM le_rfl
    have hA : chol M = some A := hA
    have hd := (cholLoop_inv le_rfl hA).pos
    have e : (eigenLLT : LLT ℝ).solve M b = Gmres.backSub (lower A)ᵀ (forwardSub A b) := by
      simp only [eigenLLT, hA]
      exact backSub_congr (fun i j hij => by simp [lower, hij]) _
    rw [e, ← chol_factor hsym hA, ← mulVec_mulVec, Gmres.backSub_exact, forwardSub_exact A b fun i => (hd i i.isLt).ne']
    · intro i j hij
      simp [lower, hij.not_ge]
    · intro i
      simp only [transpose_apply, lower, le_refl, if_true]
      exact (hd i i.isLt).ne'

/-- **C75**: what is stored in the lower triangle after a successful factorisation is a lower triangular matrix `L` with positive
diagonal and `L Lᵀ = M`. -/
theorem C75_factor {M A : Mat n n ℝ} (hM : M.IsSymm) (h : chol M = some A) :
    lower A * (lower A)ᵀ = M ∧ (∀ i j, i < j → lower A i j = 0) ∧ ∀ i, 0 < lower A i i :=
  ⟨chol_factor hM h, fun i j hij => if_neg hij.not_ge, fun i => by
    simp only [lower, le_refl, if_true]; exact (cholLoop_inv le_rfl h).pos i i.isLt⟩

/-- C75: a positive definite matrix: `[[4, 2], [2, 5]]` has the factor `[[2, 0], [1, 2]]` (the upper triangle is not used). -/
example : chol (!![4, 2; 2, 5] : Mat 2 2 ℝ) = some !![2, 2; 1, 2] := by
  have e4 : √(4 : ℝ) = 2 := by rw [show (4 : ℝ) = 2 ^ 2 by norm_num, Real.sqrt_sq (by norm_num)]
  have h1 : cholStep 0 (!![4, 2; 2, 5] : Mat 2 2 ℝ) = some !![2, 2; 1, 5] := by
    rw [cholStep_real, if_neg (by simp)]
    congr 1
    ext i j
    fin_cases i <;> fin_cases j <;> simp [e4]
  have h2 : cholStep 1 (!![2, 2; 1, 5] : Mat 2 2 ℝ) = some !![2, 2; 1, 2] := by
    have e : (!![2, 2; 1, 5] : Mat 2 2 ℝ) 1 1 - (∑ l : Fin 2, if l < 1 then (!![2, 2; 1, 5] : Mat 2 2 ℝ) 1 l * (!![2, 2; 1, 5] : Mat 2 2 ℝ) 1 l else 0) = 4 := by
      simp; norm_num
    rw [cholStep_real, e, if_neg (by norm_num)]
    congr 1
    ext i j
    fin_cases i <;> fin_cases j <;> simp [e4]
  show (cholLoop _ 1).bind _ = _
  rw [show cholLoop (!![4, 2; 2, 5] : Mat 2 2 ℝ) 1 = some !![2, 2; 1, 5] from h1]
  exact h2

/-- C75: a matrix that is not positive definite. -/
example : (eigenLLT : LLT ℝ).ok (!![0, 1; 1, 0] : Mat 2 2 ℝ) = false := by
  have h : ¬ (eigenLLT : LLT ℝ).ok (!![0, 1; 1, 0] : Mat 2 2 ℝ) = true := by
    rw [C75_cholesky.ok_iff _ (by ext i j; fin_cases i <;> fin_cases j <;> rfl)]
    intro h
    have := (posDef_iff.1 h).2 ![1, 0] (by intro h; have := congrFun h 0; simp at this)
    simp [vecHead] at this
  simpa using h

end Nmpc.Library
