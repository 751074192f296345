import Verif.Float.Sums
import Verif.Float.Ddp
import Verif.BoxQP.Props
import Mathlib.Tactic.LinearCombination

/-!
# Optimality certificates in floating-point arithmetic (lemmas)
-/

set_option linter.unusedSectionVars false

namespace Nmpc

open Matrix

variable {α : Type} [Add α] [Sub α] [Mul α] [Div α] [Neg α] [Zero α] [One α] [FOps α] {u : ℝ}

/-! ## Powers of `1 + u` -/

theorem pow_u_le {u : ℝ} (hu : 0 ≤ u) {k : ℕ} (hk : k * u ≤ 1 / 100) : (1 + u) ^ k - 1 ≤ 102 / 100 * (k * u) := by
  rcases Nat.eq_zero_or_pos k with rfl | hk0
  · simp
  have hk1 : (1 : ℝ) ≤ k := by exact_mod_cast hk0
  have hu1 : u ≤ 1 / 100 := by nlinarith
  have h1 : 1 - k * u ≤ (1 - u) ^ k := by
    have := one_add_mul_le_pow (a := -u) (by linarith) k
    have h2 : (1 + -u) = 1 - u := by ring
    rw [h2] at this
    linarith
  have h2 : (1 + u) ^ k * (1 - u) ^ k ≤ 1 := by
    rw [← mul_pow]
    exact pow_le_one₀ (by nlinarith) (by nlinarith)
  have h3 : 0 ≤ (1 + u) ^ k := by positivity
  have h4 : (1 + u) ^ k * (1 - k * u) ≤ 1 := le_trans (mul_le_mul_of_nonneg_left h1 h3) h2
  have h5 : 0 ≤ (k : ℝ) * u := by positivity
  nlinarith

/-- A sum of squares with relative errors. -/
theorem sum_sq_lower {k : ℕ} {c : ℝ} (x δ : Fin k → ℝ) (hδ : ∀ i, |δ i| ≤ c) :
    (1 - c) * ∑ i, x i * x i ≤ ∑ i, x i * x i * (1 + δ i) := by
  rw [Finset.mul_sum]
  refine Finset.sum_le_sum fun i _ => ?_
  have h1 := (abs_le.1 (hδ i)).1
  have h2 := mul_self_nonneg (x i)
  nlinarith

namespace ArithLaws

variable {F : FloatLaws α u}

/-- `||v||^2` as computed: if it is below a number then `v` consists of numbers, and it is at least
`(1 - γ) Σ x_i^2`. -/
theorem sqNorm_spec (A : ArithLaws F) {n : ℕ} (v : Vec n α) :
    F.val (sqNorm v) ≠ .ninf ∧
    ∀ r, F.val (sqNorm v) = .fin r → ∃ x : Vec n ℝ, (∀ i, F.val (v i) = .fin (x i)) ∧
      (1 - ((1 + u) ^ (n + 2) - 1)) * ∑ i, x i * x i ≤ r := by
  have hd := A.dot v v
  constructor
  · intro h
    obtain ⟨i, hi⟩ := hd.ninf h
    exact FVal.Mul.self_ninf hi
  · intro r hr
    choose x hx using fun i => (hd.finite r hr i).1
    refine ⟨x, hx, ?_⟩
    obtain ⟨δ, hδ, h⟩ := hd.fin x x hx hx
    unfold sqNorm at hr
    rw [h] at hr
    cases hr
    exact sum_sq_lower x δ hδ

end ArithLaws

namespace BoxQP

variable {n : ℕ}

/-- `freeGradNorm` as a sum over positions. -/
theorem freeGradNorm_fold (grad : Vec n α) (l : List (Fin n)) :
    freeGradNorm grad l = foldSum 0 fun k : Fin l.length => grad (l.get k) * grad (l.get k) := by
  unfold freeGradNorm foldSum
  have h : (List.finRange l.length).map (fun k : Fin l.length => grad (l.get k) * grad (l.get k)) =
      l.map fun i => grad i * grad i := by
    conv_rhs => rw [← List.map_get_finRange l]
    rw [List.map_map]
    rfl
  rw [h, List.foldl_map]

/-- The computed squared norm of the free gradient bounds that of the numbers it was computed from. -/
theorem freeGradNorm_float (F : FloatLaws α u) {grad : Vec n α} {l : List (Fin n)} {b : α} {t : ℝ} (hb : F.val b = .fin t)
    (h : ltb (freeGradNorm grad l) b = true) :
    (∀ i ∈ l, ∃ x, F.val (grad i) = .fin x) ∧
    ∀ x : Vec n ℝ, (∀ i ∈ l, F.val (grad i) = .fin (x i)) →
      (1 - ((1 + u) ^ (l.length + 1) - 1)) * (l.map fun i => x i * x i).sum < t := by
  rw [freeGradNorm_fold, F.ltb_iff, hb] at h
  have hval : ∃ r, F.val (foldSum 0 fun k : Fin l.length => grad (l.get k) * grad (l.get k)) = .fin r ∧ r < t := by
    cases hv : F.val (foldSum 0 fun k : Fin l.length => grad (l.get k) * grad (l.get k)) with
    | fin r => rw [hv] at h; exact ⟨r, rfl, h⟩
    | ninf =>
      exfalso
      rcases foldSum_ninf F _ _ hv with h0 | ⟨i, hi⟩
      · rw [F.zero] at h0; cases h0
      · have := F.mul (grad (l.get i)) (grad (l.get i))
        rw [hi] at this
        exact FVal.Mul.self_ninf this
    | _ => rw [hv] at h; exact absurd h (by simp [FVal.Lt])
  obtain ⟨r, hr, hrt⟩ := hval
  have hfin : ∀ i ∈ l, ∃ x, F.val (grad i) = .fin x := by
    intro i hi
    obtain ⟨k, rfl⟩ := List.get_of_mem hi
    obtain ⟨z, hz⟩ := (foldSum_finite F _ _ hr).2 k
    have := F.mul (grad (l.get k)) (grad (l.get k))
    rw [hz] at this
    exact this.fin_iff.1
  refine ⟨hfin, fun x hx => ?_⟩
  choose η hη hm using fun k : Fin l.length => F.mul_fin (hx (l.get k) (List.get_mem _ _)) (hx (l.get k) (List.get_mem _ _))
  obtain ⟨δ, ε, -, hε, hs⟩ := foldSum_fin F 0 (fun k : Fin l.length => grad (l.get k) * grad (l.get k)) F.zero hm
  rw [hr] at hs
  injection hs with hs
  refine lt_of_le_of_lt ?_ hrt
  rw [hs, zero_mul, zero_add]
  have h1 : (l.map fun i => x i * x i).sum = ∑ k : Fin l.length, x (l.get k) * x (l.get k) := by
    conv_lhs => rw [← List.map_get_finRange l]
    rw [List.map_map, Fin.sum_univ_def]
    rfl
  rw [h1]
  have h2 := sum_sq_lower (fun k : Fin l.length => x (l.get k)) (fun k => (1 + η k) * (1 + ε k) - 1)
    (c := (1 + u) ^ (l.length + 1) - 1) (fun k => by
      have := relErr_mul (j := 1) F.u_nonneg (by simpa using hη k) (hε k)
      rwa [add_comm 1 l.length] at this)
  refine h2.trans (le_of_eq (Finset.sum_congr rfl fun k _ => by ring))

/-- The computed gradient. -/
theorem gradient_float {F : FloatLaws α u} (A : ArithLaws F) {a : Args n α} {H : Mat n n ℝ} {g x : Vec n ℝ} {v : Vec n α}
    (hH : ∀ i j, F.val (a.H i j) = .fin (H i j)) (hg : ∀ i, F.val (a.g i) = .fin (g i))
    (hx : ∀ i, F.val (v i) = .fin (x i)) (i : Fin n) :
    ∃ G, F.val (gradient a v i) = .fin G ∧
      |G - (g + H *ᵥ x) i| ≤ ((1 + u) ^ (n + 3) - 1) * (|g i| + ∑ j, |H i j| * |x j|) := by
  obtain ⟨δ, hδ, h⟩ := (A.mulVec a.H v i).fin _ _ (hH i) hx
  obtain ⟨η, hη, h2⟩ := F.add_fin (hg i) h
  have hu := F.u_nonneg
  refine ⟨_, h2, ?_⟩
  have h3 : (g i + ∑ j, H i j * x j * (1 + δ j)) * (1 + η) - (g + H *ᵥ x) i =
      g i * η + ∑ j, H i j * x j * ((1 + η) * (1 + δ j) - 1) := by
    simp only [Pi.add_apply, Matrix.mulVec, dotProduct]
    rw [add_mul, Finset.sum_mul]
    have : ∑ j, H i j * x j * ((1 + η) * (1 + δ j) - 1) =
        ∑ j, H i j * x j * (1 + δ j) * (1 + η) - ∑ j, H i j * x j := by
      rw [← Finset.sum_sub_distrib]
      exact Finset.sum_congr rfl fun j _ => by ring
    rw [this]; ring
  rw [h3]
  have hη1 : |η| ≤ (1 + u) ^ (n + 3) - 1 := relErr_mono (j := 1) hu (by simpa using hη) (by omega)
  have hδ1 : ∀ j, |(1 + η) * (1 + δ j) - 1| ≤ (1 + u) ^ (n + 3) - 1 := fun j => by
    have := relErr_mul (j := 1) hu (by simpa using hη) (hδ j)
    rwa [show 1 + (n + 2) = n + 3 by omega] at this
  refine (abs_add_le _ _).trans ?_
  rw [mul_add]
  refine add_le_add ?_ ?_
  · rw [abs_mul, mul_comm]; exact mul_le_mul_of_nonneg_right hη1 (abs_nonneg _)
  · refine (Finset.abs_sum_le_sum_abs _ _).trans ?_
    rw [Finset.mul_sum]
    refine Finset.sum_le_sum fun j _ => ?_
    rw [abs_mul, abs_mul, mul_comm]
    exact mul_le_mul_of_nonneg_right (hδ1 j) (by positivity)

/-- Near-optimality from an approximate gradient `G` whose part `w` on the free components is small. -/
theorem qp_near_opt {H : Mat n n ℝ} (hH : H.PosSemidef) {g x y G w E : Vec n ℝ} {τ : ℝ} (hτ : 0 ≤ τ)
    (hG : ∀ i, |G i - (g + H *ᵥ x) i| ≤ E i) (hw : ∀ i, w i * (y i - x i) ≤ G i * (y i - x i))
    (hs : w ⬝ᵥ w ≤ τ ^ 2) :
    qp H g x ≤ qp H g y + (τ * Real.sqrt ((y - x) ⬝ᵥ (y - x)) + ∑ i, E i * |y i - x i|) := by
  rw [posSemidef_iff] at hH
  rw [qp_expand' hH.1 g x y]
  have h2 := hH.2 (y - x)
  have h1 : w ⬝ᵥ (y - x) - ∑ i, E i * |y i - x i| ≤ (g + H *ᵥ x) ⬝ᵥ (y - x) := by
    simp only [dotProduct]
    rw [← Finset.sum_sub_distrib]
    refine Finset.sum_le_sum fun i _ => ?_
    have h3 := hw i
    have h4 : |(G i - (g + H *ᵥ x) i) * (y i - x i)| ≤ E i * |y i - x i| := by
      rw [abs_mul]; exact mul_le_mul_of_nonneg_right (hG i) (abs_nonneg _)
    have h5 := (abs_le.1 h4).2
    simp only [Pi.sub_apply]
    nlinarith
  have h3 : -(τ * Real.sqrt ((y - x) ⬝ᵥ (y - x))) ≤ w ⬝ᵥ (y - x) := by
    have h4 := dot_sq_le w (y - x)
    have h5 := dot_self_nonneg (y - x)
    have h6 : (w ⬝ᵥ (y - x)) ^ 2 ≤ (τ * Real.sqrt ((y - x) ⬝ᵥ (y - x))) ^ 2 := by
      rw [mul_pow, Real.sq_sqrt h5]
      exact h4.trans (mul_le_mul_of_nonneg_right hs h5)
    exact (abs_le_of_sq_le_sq' h6 (mul_nonneg hτ (Real.sqrt_nonneg _))).1
  linarith

end BoxQP

end Nmpc
