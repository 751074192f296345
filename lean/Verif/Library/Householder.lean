import Verif.CGMRES.GmresExamples
import Verif.Base.LinAlg

/-!
# The Householder QR factorisation used by GMRES (C84)

`Eigen::HouseholderQR` is not part of the repository; the theorems about GMRES are stated for every implementation that meets the
contract `Gmres.Dense.Exact`.  This file contains the algorithm of Eigen (`makeHouseholder`, `applyHouseholderOnTheLeft`,
unblocked factorisation, `solve`), in any arithmetic, and shows that in exact arithmetic it meets the contract.  The right-hand
side is reflected together with the columns (Eigen reflects it later, by the same reflections in the same order).  Eigen treats a
tail with squared norm up to the smallest positive normal number as zero; here this is a tail with squared norm zero.
-/

namespace Nmpc.Library

open Matrix

section Model
variable {α : Type} [Add α] [Sub α] [Mul α] [Div α] [Neg α] [Zero α] [One α] [FOps α]

/-- A reflection `1 - tau v vᵀ`, `v = (1, essential)`, and the first entry `beta` of the reflected vector. -/
structure Refl (m : ℕ) (α : Type) where
  essential : Vec m α
  tau : α
  beta : α

/-- Eigen `makeHouseholder`. -/
def makeHouseholder {m : ℕ} (v : Vec (m + 1) α) : Refl m α :=
  let tailSq := sqNorm fun i : Fin m => v i.succ
  let c0 := v 0
  if leb tailSq 0 then { essential := fun _ => 0, tau := 0, beta := c0 }
  else
    let r := FOps.sqrt (c0 * c0 + tailSq)
    let beta := if leb 0 c0 then -r else r
    { essential := fun i => v i.succ / (c0 - beta), tau := (beta - c0) / beta, beta := beta }

/-- Eigen `applyHouseholderOnTheLeft` for one column. -/
def applyLeft {m : ℕ} (h : Refl m α) (v : Vec (m + 1) α) : Vec (m + 1) α :=
  if m = 0 then fun i => v i * (1 - h.tau)
  else if eqb h.tau 0 then v
  else
    let t := FOps.dot h.essential (fun i : Fin m => v i.succ) + v 0
    Fin.cons (v 0 - h.tau * t) fun i => v i.succ - h.tau * h.essential i * t

/-- `A.householderQr().solve(b)`.  (The case of fewer rows than columns does not occur in the code.) -/
def qrSolve : {m k : ℕ} → Mat m k α → Vec m α → Vec k α
  | _, 0, _, _ => Fin.elim0
  | 0, _ + 1, _, _ => fun _ => 0
  | _ + 1, _ + 1, A, b =>
    let h := makeHouseholder fun i => A i 0
    let B := applyLeft h b
    let y := qrSolve (fun i j => applyLeft h (fun l => A l j.succ) i.succ) fun i => B i.succ
    Fin.cons ((B 0 - FOps.dot (fun j => applyLeft h (fun l => A l j.succ) 0) y) / h.beta) y

/-- The dense solvers of GMRES: Householder QR and back substitution. -/
def eigenDense : Gmres.Dense α where
  qr M g := qrSolve M g
  tri := Gmres.backSub

end Model

/-! ## Exact arithmetic -/

/-- The vector of the reflection. -/
def Refl.vec {m : ℕ} (h : Refl m ℝ) : Vec (m + 1) ℝ := Fin.cons 1 h.essential

/-- The reflection is orthogonal. -/
def Refl.Orth {m : ℕ} (h : Refl m ℝ) : Prop := h.tau = 0 ∨ h.tau * (h.vec ⬝ᵥ h.vec) = 2

theorem vec_dot {m : ℕ} (h : Refl m ℝ) (v : Vec (m + 1) ℝ) : h.vec ⬝ᵥ v = v 0 + h.essential ⬝ᵥ fun i => v i.succ := by
  simp [Refl.vec, dotProduct, Fin.sum_univ_succ]

theorem applyLeft_real {m : ℕ} (h : Refl m ℝ) (v : Vec (m + 1) ℝ) : applyLeft h v = v - (h.tau * (h.vec ⬝ᵥ v)) • h.vec := by
  unfold applyLeft
  split
  · rename_i hm
    subst hm
    funext i
    rw [vec_dot, Fin.fin_one_eq_zero i]
    simp [Refl.vec]
    ring
  · split
    · rename_i ht
      rw [eqb_real] at ht
      simp [ht]
    · rw [vec_dot]
      funext i
      refine Fin.cases ?_ (fun i => ?_) i
      · simp only [Refl.vec, Fin.cons_zero, Pi.sub_apply, Pi.smul_apply, smul_eq_mul, dot_real]; ring
      · simp only [Refl.vec, Fin.cons_succ, Pi.sub_apply, Pi.smul_apply, smul_eq_mul, dot_real]; ring

theorem applyLeft_dot {m : ℕ} {h : Refl m ℝ} (ho : h.Orth) (v : Vec (m + 1) ℝ) : applyLeft h v ⬝ᵥ applyLeft h v = v ⬝ᵥ v := by
  rw [applyLeft_real]
  simp only [sub_dotProduct, dotProduct_sub, smul_dotProduct, dotProduct_smul, smul_eq_mul]
  rw [dotProduct_comm v h.vec]
  rcases ho with h0 | h2
  · rw [h0]; ring
  · linear_combination h.tau * (h.vec ⬝ᵥ v) ^ 2 * h2

theorem applyLeft_sub {m : ℕ} (h : Refl m ℝ) (v w : Vec (m + 1) ℝ) : applyLeft h (v - w) = applyLeft h v - applyLeft h w := by
  simp only [applyLeft_real, dotProduct_sub, mul_sub, sub_smul]
  abel

theorem applyLeft_mulVec {m k : ℕ} (h : Refl m ℝ) (A : Mat (m + 1) k ℝ) (x : Vec k ℝ) :
    applyLeft h (A *ᵥ x) = (Matrix.of fun i j => applyLeft h (fun l => A l j) i) *ᵥ x := by
  funext i
  simp only [applyLeft_real, mulVec, dotProduct, Matrix.of_apply, Pi.sub_apply, Pi.smul_apply, smul_eq_mul, sub_mul,
    Finset.sum_sub_distrib]
  congr 1
  rw [Finset.mul_sum, Finset.sum_mul]
  have : ∀ j, h.tau * (∑ l, h.vec l * A l j) * h.vec i * x j = ∑ l, h.tau * (h.vec l * (A l j * x j)) * h.vec i := by
    intro j
    rw [Finset.mul_sum, Finset.sum_mul, Finset.sum_mul]
    exact Finset.sum_congr rfl fun l _ => by ring
  rw [Finset.sum_congr rfl fun j _ => this j, Finset.sum_comm]
  refine Finset.sum_congr rfl fun l _ => ?_
  rw [Finset.mul_sum, Finset.mul_sum, Finset.sum_mul]

theorem sqrt_ne {c t : ℝ} (ht : 0 < t) :
    let r := Real.sqrt (c * c + t)
    let b := if 0 ≤ c then -r else r
    b * b = c * c + t ∧ b ≠ 0 ∧ c - b ≠ 0 := by
  intro r b
  have h0 : 0 < c * c + t := by nlinarith [mul_self_nonneg c]
  have hr : r * r = c * c + t := Real.mul_self_sqrt h0.le
  have hp : 0 < r := Real.sqrt_pos.2 h0
  show (if 0 ≤ c then -r else r) * (if 0 ≤ c then -r else r) = _ ∧ (if 0 ≤ c then -r else r) ≠ 0 ∧ c - (if 0 ≤ c then -r else r) ≠ 0
  split
  · exact ⟨by rw [neg_mul_neg, hr], by linarith, by linarith⟩
  · exact ⟨hr, hp.ne', by linarith⟩

/-- The reflection of `makeHouseholder` is orthogonal, maps the vector to `(beta, 0, …, 0)`, and `beta` vanishes only for the zero
vector. -/
theorem makeHouseholder_spec {m : ℕ} (v : Vec (m + 1) ℝ) :
    (makeHouseholder v).Orth ∧ applyLeft (makeHouseholder v) v 0 = (makeHouseholder v).beta ∧
    (∀ i : Fin m, applyLeft (makeHouseholder v) v i.succ = 0) ∧ ((makeHouseholder v).beta = 0 → v = 0) := by
  set t := (fun i : Fin m => v i.succ) ⬝ᵥ fun i : Fin m => v i.succ with ht
  have ht0 : 0 ≤ t := dot_self_nonneg _
  by_cases h : t ≤ 0
  · have e : makeHouseholder v = { essential := fun _ => 0, tau := 0, beta := v 0 } := by
      unfold makeHouseholder
      simp only [sqNorm_real, leb_real, ← ht]
      rw [if_pos h]
    have hz : (fun i : Fin m => v i.succ) = 0 := dotProduct_self_eq_zero.1 (le_antisymm h ht0)
    rw [e]
    refine ⟨.inl rfl, ?_, fun i => ?_, fun h0 => ?_⟩
    · rw [applyLeft_real]; simp
    · rw [applyLeft_real]; simpa using congrFun hz i
    · funext i
      exact Fin.cases h0 (fun i => congrFun hz i) i
  · have ht1 : 0 < t := not_le.1 h
    obtain ⟨hb, hb0, hc⟩ := sqrt_ne (c := v 0) ht1
    set b := if 0 ≤ v 0 then -Real.sqrt (v 0 * v 0 + t) else Real.sqrt (v 0 * v 0 + t) with hbd
    have e : makeHouseholder v = { essential := fun i => v i.succ / (v 0 - b), tau := (b - v 0) / b, beta := b } := by
      unfold makeHouseholder
      simp only [sqNorm_real, leb_real, ← ht, sqrt_real]
      rw [if_neg h]
    have hd : (fun i : Fin m => v i.succ / (v 0 - b)) = (v 0 - b)⁻¹ • fun i : Fin m => v i.succ := by
      funext i
      simp [div_eq_inv_mul]
    have hv : (makeHouseholder v).vec ⬝ᵥ v = v 0 + (v 0 - b)⁻¹ * t := by
      rw [vec_dot, e]
      dsimp only
      rw [hd, smul_dotProduct, ← ht, smul_eq_mul]
    have hv2 : (makeHouseholder v).tau * ((makeHouseholder v).vec ⬝ᵥ v) = v 0 - b := by
      rw [hv, e]
      dsimp only
      have : t = b * b - v 0 * v 0 := by rw [hb]; ring
      rw [this]
      field_simp
      ring
    refine ⟨.inr ?_, ?_, fun i => ?_, fun h0 => ?_⟩
    · rw [vec_dot, e]
      simp only [Refl.vec, Fin.cons_zero, Fin.cons_succ]
      rw [hd, smul_dotProduct, dotProduct_smul, ← ht, smul_eq_mul, smul_eq_mul]
      have : t = b * b - v 0 * v 0 := by rw [hb]; ring
      rw [this]
      field_simp
      ring
    · rw [applyLeft_real, hv2, e]
      simp [Refl.vec]
    · rw [applyLeft_real, hv2, e]
      simp only [Refl.vec, Pi.sub_apply, Pi.smul_apply, Fin.cons_succ, smul_eq_mul]
      field_simp
      ring
    · rw [e] at h0
      exact absurd h0 hb0

theorem dot_succ {m : ℕ} (v : Vec (m + 1) ℝ) : v ⬝ᵥ v = v 0 * v 0 + (fun i : Fin m => v i.succ) ⬝ᵥ fun i : Fin m => v i.succ := by
  simp [dotProduct, Fin.sum_univ_succ]

theorem mulVec_cons {m k : ℕ} (A : Mat m (k + 1) ℝ) (x0 : ℝ) (y : Vec k ℝ) (i : Fin m) :
    (A *ᵥ (Fin.cons x0 y : Vec (k + 1) ℝ)) i = A i 0 * x0 + (fun j => A i j.succ) ⬝ᵥ y := by
  simp [mulVec, dotProduct, Fin.sum_univ_succ]

/-- The QR solution minimises the residual. -/
theorem qrSolve_minimal {k : ℕ} : ∀ {m : ℕ} (A : Mat m k ℝ) (b : Vec m ℝ), (∀ y, A *ᵥ y = 0 → y = 0) →
    ∀ y, (b - A *ᵥ qrSolve A b) ⬝ᵥ (b - A *ᵥ qrSolve A b) ≤ (b - A *ᵥ y) ⬝ᵥ (b - A *ᵥ y) := by
  induction k with
  | zero =>
    intro m A b _ y
    rw [Subsingleton.elim (qrSolve A b) y]
  | succ k ih =>
    intro m A b hA y
    cases m with
    | zero => rw [Subsingleton.elim (b - A *ᵥ qrSolve A b) (b - A *ᵥ y)]
    | succ m =>
      set h := makeHouseholder fun i => A i 0 with hh
      obtain ⟨ho, h0, hs, hbeta⟩ := makeHouseholder_spec fun i => A i 0
      rw [← hh] at ho h0 hs hbeta
      set A' : Mat (m + 1) (k + 1) ℝ := Matrix.of fun i j => applyLeft h (fun l => A l j) i with hA'
      set S : Mat m k ℝ := fun i j => applyLeft h (fun l => A l j.succ) i.succ with hS
      set B := applyLeft h b with hB
      have hb0 : h.beta ≠ 0 := by
        intro e
        have hz := hbeta e
        have := hA (Pi.single 0 1) (by
          funext i
          rw [mulVec_single_one]
          exact congrFun hz i)
        simpa using congrFun this 0
      -- the reflected residual
      have key : ∀ (x0 : ℝ) (y : Vec k ℝ), (b - A *ᵥ (Fin.cons x0 y : Vec (k + 1) ℝ)) ⬝ᵥ (b - A *ᵥ (Fin.cons x0 y : Vec (k + 1) ℝ)) =
          (B 0 - (h.beta * x0 + (fun j => A' 0 j.succ) ⬝ᵥ y)) ^ 2 +
            ((fun i => B i.succ) - S *ᵥ y) ⬝ᵥ ((fun i => B i.succ) - S *ᵥ y) := by
        intro x0 y
        rw [← applyLeft_dot ho, applyLeft_sub, applyLeft_mulVec, ← hA', ← hB, dot_succ]
        have e0 : (A' *ᵥ (Fin.cons x0 y : Vec (k + 1) ℝ)) 0 = h.beta * x0 + (fun j => A' 0 j.succ) ⬝ᵥ y := by
          rw [mulVec_cons, ← h0]
          rfl
        have e1 : (fun i : Fin m => (B - A' *ᵥ (Fin.cons x0 y : Vec (k + 1) ℝ)) i.succ) = (fun i => B i.succ) - S *ᵥ y := by
          funext i
          rw [Pi.sub_apply, Pi.sub_apply, mulVec_cons]
          have : A' i.succ 0 = 0 := hs i
          rw [this, zero_mul, zero_add]
          rfl
        rw [e1, Pi.sub_apply, e0]
        ring
      have hSinj : ∀ y, S *ᵥ y = 0 → y = 0 := by
        intro y hy
        have h1 := key (-((fun j => A' 0 j.succ) ⬝ᵥ y) / h.beta) y
        set x : Vec (k + 1) ℝ := Fin.cons (-((fun j => A' 0 j.succ) ⬝ᵥ y) / h.beta) y with hx
        have h2 : A' *ᵥ x = 0 := by
          funext i
          refine Fin.cases ?_ (fun i => ?_) i
          · rw [hx, mulVec_cons]
            have : A' 0 0 = h.beta := h0
            rw [this, mul_div_cancel₀ _ hb0, neg_add_cancel]
            rfl
          · rw [hx, mulVec_cons]
            have : A' i.succ 0 = 0 := hs i
            rw [this, zero_mul, zero_add]
            exact congrFun hy i
        have h3 : A *ᵥ x = 0 := by
          rw [hA', ← applyLeft_mulVec] at h2
          have := applyLeft_dot ho (A *ᵥ x)
          rw [h2, zero_dotProduct] at this
          exact dotProduct_self_eq_zero.1 this.symm
        have h4 := hA x h3
        funext j
        have := congrFun h4 j.succ
        rw [hx, Fin.cons_succ] at this
        exact this
      have hsol : qrSolve A b = Fin.cons ((B 0 - (fun j => A' 0 j.succ) ⬝ᵥ qrSolve S (fun i => B i.succ)) / h.beta)
          (qrSolve S (fun i => B i.succ)) := rfl
      have hy : y = Fin.cons (y 0) (fun j => y j.succ) := (Fin.cons_self_tail y).symm
      rw [hsol, key, hy, key, mul_div_cancel₀ _ hb0, sub_add_cancel, sub_self]
      have := ih S (fun i => B i.succ) hSinj fun j => y j.succ
      have h2 := sq_nonneg (B 0 - (h.beta * y 0 + (fun j : Fin k => A' 0 j.succ) ⬝ᵥ fun j : Fin k => y j.succ))
      linarith

/-- **C84** Householder QR and back substitution meet the contract on which the theorems about GMRES rest. -/
theorem C84_dense : (eigenDense : Gmres.Dense ℝ).Exact where
  tri U g h1 h2 := Gmres.backSub_exact U g h1 h2
  qr M g hM y := qrSolve_minimal M g hM y

/-- **C84** For a nonsingular square matrix, `A.householderQr().solve(b)` solves the system. -/
theorem C84_qr_solves {n : ℕ} (A : Mat n n ℝ) (b : Vec n ℝ) (hA : IsUnit A.det) : A *ᵥ qrSolve A b = b := by
  have hinj : ∀ y, A *ᵥ y = 0 → y = 0 := fun y hy => by
    have := congrArg (A⁻¹ *ᵥ ·) hy
    simpa [mulVec_mulVec, nonsing_inv_mul A hA] using this
  have := qrSolve_minimal A b hinj (A⁻¹ *ᵥ b)
  rw [mulVec_mulVec, mul_nonsing_inv A hA, one_mulVec, sub_self, zero_dotProduct] at this
  have h0 := dotProduct_self_eq_zero.1 (le_antisymm this (dot_self_nonneg _))
  exact (sub_eq_zero.1 h0).symm

end Nmpc.Library
