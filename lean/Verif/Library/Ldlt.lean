import Verif.FMPC.Newton
import Verif.Base.LinAlg
import Verif.Library.Householder

/-!
# The LDLT and LU factorisations used by the FMPC solver (C85)

`Eigen::LDLT` and `Eigen::FullPivLU` are not part of the repository; the theorems about FMPC are stated for every implementation
that meets the contract `FMPC.ExactGain`.  This file contains the two algorithms as elimination of one variable at a time, in any
arithmetic, and shows that in exact arithmetic they meet the contract.

LDLT: Eigen's unblocked `ldlt_inplace<Lower>` chooses the pivot by the largest absolute value on the diagonal *before* the update
of the trailing block (the factorisation is left-looking), so the original diagonal is carried along.  `info()` is `Success` unless
a zero pivot has a nonzero column below it or a nonzero pivot comes after a zero pivot.  Zero pivots are skipped in `solve`.
(Eigen computes with the lower triangle only and treats pivots up to the smallest normal number as zero in `solve`.)

LU: complete pivoting.  (Eigen's `solve` also treats pivots below `n * epsilon` times the largest one as zero; the model treats only
zero pivots so.)
-/

namespace Nmpc.Library

open Matrix

section Model
variable {α : Type} [Add α] [Sub α] [Mul α] [Div α] [Neg α] [Zero α] [One α] [FOps α]

/-- Index of the first largest absolute value (`cwiseAbs().maxCoeff(&index)`). -/
def argmaxAbs : {k : ℕ} → Vec (k + 1) α → Fin (k + 1)
  | 0, _ => 0
  | _ + 1, v =>
    let j := argmaxAbs fun i => v i.succ
    if ltb (FOps.abs (v 0)) (FOps.abs (v j.succ)) then j.succ else 0

/-- Symmetric exchange of the indices `0` and `p`. -/
def swapSym {k : ℕ} (p : Fin (k + 1)) (A : Mat (k + 1) (k + 1) α) : Mat (k + 1) (k + 1) α :=
  fun i j => A (Equiv.swap 0 p i) (Equiv.swap 0 p j)

/-- First column of the unit lower triangular factor: the column below the pivot, divided by the pivot unless this is zero. -/
def lCol {k : ℕ} (A : Mat (k + 1) (k + 1) α) : Vec k α :=
  fun i => if eqb (A 0 0) 0 then A i.succ 0 else A i.succ 0 / A 0 0

/-- Trailing block after the elimination of the first variable: `A22 - l (d lᵀ)`. -/
def schurSym {k : ℕ} (A : Mat (k + 1) (k + 1) α) : Mat k k α :=
  fun i j => A i.succ j.succ - lCol A i * (A 0 0 * lCol A j)

/-- `info() == Eigen::Success`; `dg` is the diagonal before the updates, `zero` the flag `found_zero_pivot`. -/
def ldltOk : {k : ℕ} → Bool → Vec k α → Mat k k α → Bool
  | 0, _, _, _ => true
  | k + 1, zero, dg, A =>
    let p := argmaxAbs dg
    let A' := swapSym p A
    let dg' : Vec k α := fun i => dg (Equiv.swap 0 p i.succ)
    if eqb (A' 0 0) 0 then (List.finRange k).all (fun i => eqb (A' i.succ 0) 0) && ldltOk true dg' (schurSym A')
    else !zero && ldltOk zero dg' (schurSym A')

/-- `ldlt.solve(b)`. -/
def ldltSolve : {k : ℕ} → Vec k α → Mat k k α → Vec k α → Vec k α
  | 0, _, _, _ => Fin.elim0
  | k + 1, dg, A, b =>
    let p := argmaxAbs dg
    let A' := swapSym p A
    let l := lCol A'
    let b0 := b (Equiv.swap 0 p 0)
    let y := ldltSolve (fun i : Fin k => dg (Equiv.swap 0 p i.succ)) (schurSym A') fun i => b (Equiv.swap 0 p i.succ) - l i * b0
    let x0 := (if eqb (A' 0 0) 0 then 0 else b0 / A' 0 0) - FOps.dot l y
    fun i => (Fin.cons x0 y : Vec (k + 1) α) (Equiv.swap 0 p i)

/-- Position of the first largest absolute value of a matrix. -/
def argmaxMat {k : ℕ} (A : Mat (k + 1) (k + 1) α) : Fin (k + 1) × Fin (k + 1) :=
  let col := fun i => argmaxAbs (A i)
  let i := argmaxAbs fun i => A i (col i)
  (i, col i)

/-- `fullPivLu().solve(b)`. -/
def luSolve : {k : ℕ} → Mat k k α → Vec k α → Vec k α
  | 0, _, _ => Fin.elim0
  | k + 1, A, b =>
    let p := argmaxMat A
    let A' : Mat (k + 1) (k + 1) α := fun i j => A (Equiv.swap 0 p.1 i) (Equiv.swap 0 p.2 j)
    if eqb (A' 0 0) 0 then fun _ => 0
    else
      let l : Vec k α := fun i => A' i.succ 0 / A' 0 0
      let b0 := b (Equiv.swap 0 p.1 0)
      let y := luSolve (fun i j => A' i.succ j.succ - l i * A' 0 j.succ) fun i => b (Equiv.swap 0 p.1 i.succ) - l i * b0
      let x0 := (b0 - FOps.dot (fun j : Fin k => A' 0 j.succ) y) / A' 0 0
      fun j => (Fin.cons x0 y : Vec (k + 1) α) (Equiv.swap 0 p.2 j)

/-- The factorisations of the FMPC solver by these algorithms. -/
def eigenGain : FMPC.GainSolver α where
  ok A := ldltOk false (fun i => A i i) A
  ldlt A b := ldltSolve (fun i => A i i) A b
  lu A b := luSolve A b

end Model

/-! ## Exact arithmetic -/

theorem argmaxAbs_max : ∀ {k : ℕ} (v : Vec (k + 1) ℝ) (i : Fin (k + 1)), |v i| ≤ |v (argmaxAbs v)|
  | 0, v, i => by rw [Fin.fin_one_eq_zero i, Fin.fin_one_eq_zero (argmaxAbs v)]
  | k + 1, v, i => by
    have ih := argmaxAbs_max fun i => v i.succ
    rw [argmaxAbs]
    split
    · rename_i h
      rw [abs_real, abs_real, ltb_real] at h
      exact Fin.cases h.le (fun i => ih i) i
    · rename_i h
      rw [abs_real, abs_real, ltb_real] at h
      exact Fin.cases le_rfl (fun i => (ih i).trans (not_lt.1 h)) i

/-- Product with a permuted matrix. -/
theorem perm_mulVec {k : ℕ} (A : Mat k k ℝ) (σ τ : Equiv.Perm (Fin k)) {x y : Vec k ℝ} (h : ∀ j, y j = x (τ j)) (i : Fin k) :
    ((fun i j => A (σ i) (τ j) : Mat k k ℝ) *ᵥ y) i = (A *ᵥ x) (σ i) := by
  simp only [mulVec, dotProduct, h]
  exact Equiv.sum_comp τ fun j => A (σ i) j * x j

theorem inj_perm {k : ℕ} {A : Mat k k ℝ} (hA : ∀ y, A *ᵥ y = 0 → y = 0) (σ τ : Equiv.Perm (Fin k)) :
    ∀ y, (fun i j => A (σ i) (τ j) : Mat k k ℝ) *ᵥ y = 0 → y = 0 := by
  intro y hy
  have h1 : A *ᵥ (fun j => y (τ.symm j)) = 0 := by
    funext i
    have := congrFun hy (σ.symm i)
    rw [perm_mulVec A σ τ (x := fun j => y (τ.symm j)) (by simp), σ.apply_symm_apply] at this
    exact this
  have h2 := hA _ h1
  funext j
  have := congrFun h2 (τ j)
  simpa using this

theorem mulVec_cons_zero {k : ℕ} (A : Mat (k + 1) (k + 1) ℝ) (x0 : ℝ) (y : Vec k ℝ) :
    (A *ᵥ (Fin.cons x0 y : Vec (k + 1) ℝ)) 0 = A 0 0 * x0 + (fun j => A 0 j.succ) ⬝ᵥ y := mulVec_cons A x0 y 0

section LDLT

theorem swapSym_symm {k : ℕ} {A : Mat (k + 1) (k + 1) ℝ} (hA : A.IsSymm) (p : Fin (k + 1)) : (swapSym p A).IsSymm :=
  Matrix.IsSymm.ext fun _ _ => hA.apply _ _

theorem schurSym_symm {k : ℕ} {A : Mat (k + 1) (k + 1) ℝ} (hA : A.IsSymm) : (schurSym A).IsSymm :=
  Matrix.IsSymm.ext fun i j => by
    unfold schurSym
    rw [hA.apply i.succ j.succ]
    ring

theorem lCol_mul {k : ℕ} {A : Mat (k + 1) (k + 1) ℝ} (h : A 0 0 ≠ 0) (i : Fin k) : lCol A i * A 0 0 = A i.succ 0 := by
  unfold lCol
  rw [if_neg (by rwa [eqb_real]), div_mul_cancel₀ _ h]

/-- The rows below the first one, when the first entry is eliminated. -/
theorem mulVec_schur {k : ℕ} {A : Mat (k + 1) (k + 1) ℝ} (hA : A.IsSymm) (h : A 0 0 ≠ 0) (x0 : ℝ) (y : Vec k ℝ) (i : Fin k) :
    (A *ᵥ (Fin.cons x0 y : Vec (k + 1) ℝ)) i.succ = lCol A i * (A *ᵥ (Fin.cons x0 y : Vec (k + 1) ℝ)) 0 + (schurSym A *ᵥ y) i := by
  rw [mulVec_cons, mulVec_cons]
  have e : (schurSym A *ᵥ y) i = (fun j => A i.succ j.succ) ⬝ᵥ y - lCol A i * ((fun j : Fin k => A 0 j.succ) ⬝ᵥ y) := by
    simp only [mulVec, dotProduct, schurSym, sub_mul, Finset.sum_sub_distrib, Finset.mul_sum]
    congr 1
    refine Finset.sum_congr rfl fun j _ => ?_
    rw [mul_comm (A 0 0), lCol_mul h, hA.apply 0 j.succ]
    ring
  rw [e, ← lCol_mul h i]
  ring

theorem row0_lCol {k : ℕ} {A : Mat (k + 1) (k + 1) ℝ} (hA : A.IsSymm) (h : A 0 0 ≠ 0) (y : Vec k ℝ) :
    (fun j : Fin k => A 0 j.succ) ⬝ᵥ y = A 0 0 * (lCol A ⬝ᵥ y) := by
  simp only [dotProduct, Finset.mul_sum]
  refine Finset.sum_congr rfl fun j _ => ?_
  rw [← hA.apply 0 j.succ, ← lCol_mul h j]
  ring

theorem schurSym_inj {k : ℕ} {A : Mat (k + 1) (k + 1) ℝ} (hA : A.IsSymm) (h : A 0 0 ≠ 0) (hi : ∀ y, A *ᵥ y = 0 → y = 0) :
    ∀ y, schurSym A *ᵥ y = 0 → y = 0 := by
  intro y hy
  have h0 : (A *ᵥ (Fin.cons (-(lCol A ⬝ᵥ y)) y : Vec (k + 1) ℝ)) 0 = 0 := by
    rw [mulVec_cons, row0_lCol hA h]
    ring
  have := hi (Fin.cons (-(lCol A ⬝ᵥ y)) y) (by
    funext i
    refine Fin.cases h0 (fun i => ?_) i
    rw [mulVec_schur hA h, h0, hy]
    simp)
  funext j
  have := congrFun this j.succ
  rwa [Fin.cons_succ] at this

/-- If the factorisation of a nonsingular symmetric matrix succeeds, `solve` solves the system. -/
theorem ldltSolve_exact {k : ℕ} : ∀ (dg : Vec k ℝ) (A : Mat k k ℝ) (b : Vec k ℝ), A.IsSymm → (∀ y, A *ᵥ y = 0 → y = 0) →
    ldltOk false dg A = true → A *ᵥ ldltSolve dg A b = b := by
  induction k with
  | zero => intro dg A b _ _ _; exact Subsingleton.elim _ _
  | succ k ih =>
    intro dg A b hs hi hok
    set p := argmaxAbs dg with hp
    set A' := swapSym p A with hA'
    have hs' : A'.IsSymm := swapSym_symm hs p
    have hi' : ∀ y, A' *ᵥ y = 0 → y = 0 := inj_perm hi (Equiv.swap 0 p) (Equiv.swap 0 p)
    rw [ldltOk, ← hp, ← hA'] at hok
    by_cases h0 : A' 0 0 = 0
    · exfalso
      rw [if_pos (by rwa [eqb_real]), Bool.and_eq_true, List.all_eq_true] at hok
      have := hi' (Pi.single 0 1) (by
        rw [mulVec_single_one]
        funext i
        refine Fin.cases h0 (fun i => ?_) i
        have := hok.1 i (List.mem_finRange i)
        rwa [eqb_real] at this)
      simpa using congrFun this 0
    · rw [if_neg (by rwa [eqb_real]), Bool.and_eq_true] at hok
      set l := lCol A' with hl
      set b0 := b (Equiv.swap 0 p 0) with hb0
      set b' : Vec k ℝ := fun i => b (Equiv.swap 0 p i.succ) - l i * b0 with hb'
      set y := ldltSolve (fun i : Fin k => dg (Equiv.swap 0 p i.succ)) (schurSym A') b' with hy
      have hrec : schurSym A' *ᵥ y = b' := ih _ _ b' (schurSym_symm hs') (schurSym_inj hs' h0 hi') hok.2
      set x : Vec (k + 1) ℝ := Fin.cons (b0 / A' 0 0 - l ⬝ᵥ y) y with hx
      have hsol : ldltSolve dg A b = fun i => x (Equiv.swap 0 p i) := by
        rw [ldltSolve, ← hp, ← hA', if_neg (by rwa [eqb_real])]
        rfl
      have e0 : (A' *ᵥ x) 0 = b0 := by
        rw [hx, mulVec_cons, row0_lCol hs' h0]
        field_simp
        ring
      have e1 : ∀ i, (A' *ᵥ x) i = b (Equiv.swap 0 p i) := by
        intro i
        refine Fin.cases e0 (fun i => ?_) i
        rw [hx, mulVec_schur hs' h0, ← hx, e0, hrec, hb']
        ring
      funext i
      have := e1 (Equiv.swap 0 p i)
      rw [hA'] at this
      unfold swapSym at this
      rw [perm_mulVec A _ _ (x := fun j => x (Equiv.swap 0 p j)) (by simp), Equiv.swap_apply_self] at this
      rw [hsol]
      exact this

theorem swapSym_posDef {k : ℕ} {A : Mat (k + 1) (k + 1) ℝ} (hA : A.PosDef) (p : Fin (k + 1)) : (swapSym p A).PosDef := by
  obtain ⟨hs, hp⟩ := posDef_iff.1 hA
  refine posDef_iff.2 ⟨swapSym_symm hs p, fun x hx => ?_⟩
  set y : Vec (k + 1) ℝ := fun j => x (Equiv.swap 0 p j) with hy
  have e : x = fun i => y (Equiv.swap 0 p i) := by funext i; simp [hy]
  have h1 : x ⬝ᵥ swapSym p A *ᵥ x = y ⬝ᵥ A *ᵥ y := by
    have : ∀ i, (swapSym p A *ᵥ x) i = (A *ᵥ y) (Equiv.swap 0 p i) := by
      intro i
      exact perm_mulVec A _ _ (fun j => congrFun e j) i
    simp only [dotProduct]
    rw [← Equiv.sum_comp (Equiv.swap 0 p) fun i => y i * (A *ᵥ y) i]
    exact Finset.sum_congr rfl fun i _ => by rw [this i]; simp [hy]
  rw [h1]
  refine hp y fun h0 => hx ?_
  rw [e, h0]
  rfl

theorem pivot_posDef {k : ℕ} {A : Mat (k + 1) (k + 1) ℝ} (hA : A.PosDef) : 0 < A 0 0 := by
  have := (posDef_iff.1 hA).2 (Pi.single 0 1) (by simp)
  rw [mulVec_single_one, single_one_dotProduct] at this
  exact this

theorem schurSym_posDef {k : ℕ} {A : Mat (k + 1) (k + 1) ℝ} (hA : A.PosDef) : (schurSym A).PosDef := by
  obtain ⟨hs, hp⟩ := posDef_iff.1 hA
  have h := (pivot_posDef hA).ne'
  refine posDef_iff.2 ⟨schurSym_symm hs, fun y hy => ?_⟩
  set x : Vec (k + 1) ℝ := Fin.cons (-(lCol A ⬝ᵥ y)) y with hx
  have h0 : (A *ᵥ x) 0 = 0 := by
    rw [hx, mulVec_cons, row0_lCol hs h]
    ring
  have e : x ⬝ᵥ A *ᵥ x = y ⬝ᵥ schurSym A *ᵥ y := by
    simp only [dotProduct]
    rw [Fin.sum_univ_succ, h0, mul_zero, zero_add]
    refine Finset.sum_congr rfl fun i _ => ?_
    rw [hx, mulVec_schur hs h, ← hx, h0, mul_zero, zero_add]
    rfl
  rw [← e]
  refine hp x fun h0 => hy ?_
  funext j
  have := congrFun h0 j.succ
  rwa [hx, Fin.cons_succ] at this

/-- The factorisation of a positive definite matrix succeeds. -/
theorem ldltOk_posDef {k : ℕ} : ∀ (dg : Vec k ℝ) (A : Mat k k ℝ), A.PosDef → ldltOk false dg A = true := by
  induction k with
  | zero => intro dg A _; rfl
  | succ k ih =>
    intro dg A hA
    have h1 := swapSym_posDef hA (argmaxAbs dg)
    rw [ldltOk, if_neg (by rw [eqb_real]; exact (pivot_posDef h1).ne')]
    exact ih _ _ (schurSym_posDef h1)

end LDLT

section LU

theorem argmaxMat_ne {k : ℕ} {A : Mat (k + 1) (k + 1) ℝ} (h : A (argmaxMat A).1 (argmaxMat A).2 = 0) : A = 0 := by
  funext i j
  have h1 := argmaxAbs_max (A i) j
  have h2 := argmaxAbs_max (fun i => A i (argmaxAbs (A i))) i
  have h3 : |A (argmaxMat A).1 (argmaxMat A).2| = 0 := by rw [h, abs_zero]
  exact abs_eq_zero.1 (le_antisymm ((h1.trans h2).trans h3.le) (abs_nonneg _))

/-- LU with complete pivoting solves every nonsingular system. -/
theorem luSolve_exact {k : ℕ} : ∀ (A : Mat k k ℝ) (b : Vec k ℝ), (∀ y, A *ᵥ y = 0 → y = 0) → A *ᵥ luSolve A b = b := by
  induction k with
  | zero => intro A b _; exact Subsingleton.elim _ _
  | succ k ih =>
    intro A b hi
    set p := argmaxMat A with hp
    set A' : Mat (k + 1) (k + 1) ℝ := fun i j => A (Equiv.swap 0 p.1 i) (Equiv.swap 0 p.2 j) with hA'
    have hi' : ∀ y, A' *ᵥ y = 0 → y = 0 := inj_perm hi (Equiv.swap 0 p.1) (Equiv.swap 0 p.2)
    have h0 : A' 0 0 ≠ 0 := by
      intro h
      rw [hA'] at h
      dsimp only at h
      rw [Equiv.swap_apply_left, Equiv.swap_apply_left] at h
      have hz := argmaxMat_ne h
      have := hi (Pi.single 0 1) (by rw [hz, zero_mulVec])
      simpa using congrFun this 0
    set l : Vec k ℝ := fun i => A' i.succ 0 / A' 0 0 with hl
    set S : Mat k k ℝ := fun i j => A' i.succ j.succ - l i * A' 0 j.succ with hS
    set b0 := b (Equiv.swap 0 p.1 0) with hb0
    set b' : Vec k ℝ := fun i => b (Equiv.swap 0 p.1 i.succ) - l i * b0 with hb'
    have hl0 : ∀ i, l i * A' 0 0 = A' i.succ 0 := fun i => div_mul_cancel₀ _ h0
    have hrow : ∀ (x0 : ℝ) (y : Vec k ℝ) (i : Fin k), (A' *ᵥ (Fin.cons x0 y : Vec (k + 1) ℝ)) i.succ =
        l i * (A' *ᵥ (Fin.cons x0 y : Vec (k + 1) ℝ)) 0 + (S *ᵥ y) i := by
      intro x0 y i
      rw [mulVec_cons, mulVec_cons]
      have e : (S *ᵥ y) i = (fun j => A' i.succ j.succ) ⬝ᵥ y - l i * ((fun j : Fin k => A' 0 j.succ) ⬝ᵥ y) := by
        simp only [mulVec, dotProduct, hS, sub_mul, Finset.sum_sub_distrib, Finset.mul_sum]
        congr 1
        exact Finset.sum_congr rfl fun j _ => by ring
      rw [e, ← hl0 i]
      ring
    have hSi : ∀ y, S *ᵥ y = 0 → y = 0 := by
      intro y hy
      have h1 : (A' *ᵥ (Fin.cons (-((fun j : Fin k => A' 0 j.succ) ⬝ᵥ y) / A' 0 0) y : Vec (k + 1) ℝ)) 0 = 0 := by
        rw [mulVec_cons, mul_div_cancel₀ _ h0, neg_add_cancel]
      have := hi' (Fin.cons (-((fun j : Fin k => A' 0 j.succ) ⬝ᵥ y) / A' 0 0) y) (by
        funext i
        refine Fin.cases h1 (fun i => ?_) i
        rw [hrow, h1, hy]
        simp)
      funext j
      have := congrFun this j.succ
      rwa [Fin.cons_succ] at this
    set y := luSolve S b' with hy
    have hrec : S *ᵥ y = b' := ih S b' hSi
    set x : Vec (k + 1) ℝ := Fin.cons ((b0 - (fun j : Fin k => A' 0 j.succ) ⬝ᵥ y) / A' 0 0) y with hx
    have hsol : luSolve A b = fun j => x (Equiv.swap 0 p.2 j) := by
      rw [luSolve, if_neg (by rwa [eqb_real])]
      rfl
    have e0 : (A' *ᵥ x) 0 = b0 := by
      rw [hx, mulVec_cons, mul_div_cancel₀ _ h0, sub_add_cancel]
    have e1 : ∀ i, (A' *ᵥ x) i = b (Equiv.swap 0 p.1 i) := by
      intro i
      refine Fin.cases e0 (fun i => ?_) i
      rw [hx, hrow, ← hx, e0, hrec, hb']
      ring
    funext i
    have := e1 (Equiv.swap 0 p.1 i)
    rw [hA', perm_mulVec A _ _ (x := fun j => x (Equiv.swap 0 p.2 j)) (by simp), Equiv.swap_apply_self] at this
    rw [hsol]
    exact this

end LU

theorem inj_of_det {k : ℕ} {A : Mat k k ℝ} (hA : IsUnit A.det) : ∀ y, A *ᵥ y = 0 → y = 0 := fun y hy => by
  have := congrArg (A⁻¹ *ᵥ ·) hy
  simpa [mulVec_mulVec, nonsing_inv_mul A hA] using this

/-- **C85** LDLT and LU meet the contract on which the theorems about FMPC rest. -/
theorem C85_gain : FMPC.ExactGain (eigenGain : FMPC.GainSolver ℝ) where
  ldlt A b hs hd hok := ldltSolve_exact _ A b hs (inj_of_det hd) hok
  lu A b hd := luSolve_exact A b (inj_of_det hd)
  ok A hA := ldltOk_posDef _ A hA

end Nmpc.Library
