import Verif.DDP.Newton
import Verif.DDP.BoxKktProps
import Mathlib.Analysis.Calculus.MeanValue
import Mathlib.Analysis.Calculus.Deriv.Pow
import Mathlib.Analysis.Calculus.LocalExtr.Basic

/-!
# Costs with Lipschitz second derivatives: Taylor bounds
-/

namespace Nmpc.DDP

set_option linter.unusedSectionVars false

open Matrix Finset Set

section Taylor

/-- First-order Taylor bound for a function of one variable with Lipschitz derivative. -/
theorem taylor_one {h h' : ℝ → ℝ} {C : ℝ} (hd : ∀ s ∈ Icc (0 : ℝ) 1, HasDerivAt h (h' s) s)
    (hl : ∀ s ∈ Icc (0 : ℝ) 1, |h' s - h' 0| ≤ C * s) {s : ℝ} (hs : s ∈ Icc (0 : ℝ) 1) :
    |h s - h 0 - s * h' 0| ≤ C / 2 * s ^ 2 := by
  have key := image_norm_le_of_norm_deriv_right_le_deriv_boundary (f := fun s => h s - h 0 - s * h' 0)
    (f' := fun s => h' s - h' 0) (a := 0) (b := 1) (B := fun s => C / 2 * s ^ 2) (B' := fun s => C * s) ?_ ?_ ?_ ?_ ?_ hs
  · simpa using key
  · intro t ht
    exact (((hd t ht).continuousAt.sub continuousAt_const).sub (continuousAt_id.mul continuousAt_const)).continuousWithinAt
  · intro t ht
    have := (((hd t ⟨ht.1, ht.2.le⟩).sub_const (h 0)).sub ((hasDerivAt_id' t).mul_const (h' 0))).hasDerivWithinAt (s := Ici t)
    exact this.congr_deriv (by simp)
  · simp
  · intro t
    have := ((hasDerivAt_id' t).pow 2).const_mul (C / 2)
    refine this.congr_deriv ?_
    simp; ring
  · intro t ht
    simpa using hl t ⟨ht.1, ht.2.le⟩

/-- Second-order Taylor bound for a function of one variable with Lipschitz second derivative. -/
theorem taylor_two {h h' h'' : ℝ → ℝ} {C : ℝ} (hd : ∀ s ∈ Icc (0 : ℝ) 1, HasDerivAt h (h' s) s)
    (hd' : ∀ s ∈ Icc (0 : ℝ) 1, HasDerivAt h' (h'' s) s) (hl : ∀ s ∈ Icc (0 : ℝ) 1, |h'' s - h'' 0| ≤ C * s) :
    |h 1 - h 0 - h' 0 - 1 / 2 * h'' 0| ≤ C / 6 := by
  have key := image_norm_le_of_norm_deriv_right_le_deriv_boundary
    (f := fun s => h s - h 0 - s * h' 0 - s ^ 2 * (1 / 2 * h'' 0))
    (f' := fun s => h' s - h' 0 - s * h'' 0) (a := 0) (b := 1) (B := fun s => C / 6 * s ^ 3) (B' := fun s => C / 2 * s ^ 2)
    ?_ ?_ ?_ ?_ ?_ (right_mem_Icc.2 zero_le_one)
  · simpa using key
  · intro t ht
    exact ((((hd t ht).continuousAt.sub continuousAt_const).sub (continuousAt_id.mul continuousAt_const)).sub
      ((continuousAt_id.pow 2).mul continuousAt_const)).continuousWithinAt
  · intro t ht
    have := ((((hd t ⟨ht.1, ht.2.le⟩).sub_const (h 0)).sub ((hasDerivAt_id' t).mul_const (h' 0))).sub
      (((hasDerivAt_id' t).pow 2).mul_const (1 / 2 * h'' 0))).hasDerivWithinAt (s := Ici t)
    refine this.congr_deriv ?_
    simp; ring
  · simp
  · intro t
    have := ((hasDerivAt_id' t).pow 3).const_mul (C / 6)
    refine this.congr_deriv ?_
    simp; ring
  · intro t ht
    have := taylor_one hd' hl (s := t) ⟨ht.1, ht.2.le⟩
    simpa using this

end Taylor

section Smooth
variable {n k : ℕ}

/-- Sum of squares of a pair. -/
noncomputable def sq2 (a : Vec n ℝ) (b : Vec k ℝ) : ℝ := a ⬝ᵥ a + b ⬝ᵥ b

/-- The bilinear form of the second derivatives. -/
noncomputable def LDeriv.bil (L : LDeriv n k ℝ) (ax : Vec n ℝ) (au : Vec k ℝ) (bx : Vec n ℝ) (bu : Vec k ℝ) : ℝ :=
  (L.Lxx *ᵥ bx + L.Lxu *ᵥ bu) ⬝ᵥ ax + (L.Lxuᵀ *ᵥ bx + L.Luu *ᵥ bu) ⬝ᵥ au

/-- In the ball of radius `r` around `(xs, us)` the function `f` is twice differentiable, `D` holds its first and second derivatives,
and the second derivative is Lipschitz continuous with constant `M` (Euclidean norms). -/
structure TwiceSmooth (f : Vec n ℝ → Vec k ℝ → ℝ) (D : Vec n ℝ → Vec k ℝ → LDeriv n k ℝ) (xs : Vec n ℝ) (us : Vec k ℝ)
    (r M : ℝ) : Prop where
  grad : ∀ x u, sq2 (x - xs) (u - us) ≤ r ^ 2 → IsGrad2 f x u (D x u).Lx (D x u).Lu
  hessX : ∀ x u, sq2 (x - xs) (u - us) ≤ r ^ 2 → IsJac2 (fun x u => (D x u).Lx) x u (D x u).Lxx (D x u).Lxu
  hessU : ∀ x u, sq2 (x - xs) (u - us) ≤ r ^ 2 → IsJac2 (fun x u => (D x u).Lu) x u (D x u).Lxuᵀ (D x u).Luu
  symm : ∀ x u, sq2 (x - xs) (u - us) ≤ r ^ 2 → (D x u).Lxx.IsSymm ∧ (D x u).Luu.IsSymm
  lip : ∀ x u x' u', sq2 (x - xs) (u - us) ≤ r ^ 2 → sq2 (x' - xs) (u' - us) ≤ r ^ 2 → ∀ ax au bx bu,
    |(D x' u').bil ax au bx bu - (D x u).bil ax au bx bu| ≤
      M * √(sq2 (x' - x) (u' - u)) * √(sq2 ax au) * √(sq2 bx bu)

theorem sq2_nonneg (a : Vec n ℝ) (b : Vec k ℝ) : 0 ≤ sq2 a b := add_nonneg (dot_self_nonneg' _) (dot_self_nonneg' _)

theorem sq2_smul (s : ℝ) (a : Vec n ℝ) (b : Vec k ℝ) : sq2 (s • a) (s • b) = s ^ 2 * sq2 a b := by
  simp only [sq2, smul_dotProduct, dotProduct_smul, smul_eq_mul]; ring

theorem sq2_seg {a δ : Vec n ℝ} {b η : Vec k ℝ} {q s : ℝ} (h0 : sq2 a b ≤ q) (h1 : sq2 (a + δ) (b + η) ≤ q)
    (hs : s ∈ Icc (0 : ℝ) 1) : sq2 (a + s • δ) (b + s • η) ≤ q := by
  have hd := sq2_nonneg δ η
  simp only [sq2, add_dotProduct, dotProduct_add, smul_dotProduct, dotProduct_smul, smul_eq_mul] at *
  rw [dotProduct_comm δ a, dotProduct_comm η b] at *
  obtain ⟨h2, h3⟩ := hs
  nlinarith [mul_nonneg h2 (sub_nonneg.2 h3), mul_nonneg (mul_nonneg h2 (sub_nonneg.2 h3)) hd]

/-- Derivative along a line at any point of it. -/
theorem hasDerivAt_line {E F : Type} [NormedAddCommGroup E] [NormedSpace ℝ E] [NormedAddCommGroup F] [NormedSpace ℝ F] {f : E → F} {x v : E}
    {s : ℝ} {D : E →L[ℝ] F} (h : HasFDerivAt f D (x + s • v)) : HasDerivAt (fun s : ℝ => f (x + s • v)) (D v) s := by
  have h1 : HasDerivAt (fun s : ℝ => x + s • v) v s := by
    simpa using ((hasDerivAt_id s).smul_const v).const_add x
  exact h.comp_hasDerivAt s h1

theorem IsGrad2.line {f : Vec n ℝ → Vec k ℝ → ℝ} {x dx : Vec n ℝ} {u du : Vec k ℝ} {s : ℝ} {g : Vec n ℝ} {h : Vec k ℝ}
    (H : IsGrad2 f (x + s • dx) (u + s • du) g h) :
    HasDerivAt (fun s : ℝ => f (x + s • dx) (u + s • du)) (g ⬝ᵥ dx + h ⬝ᵥ du) s := by
  obtain ⟨D, hD, hv⟩ := H
  have hD' : HasFDerivAt _ D (((x, u) : Vec n ℝ × Vec k ℝ) + s • (dx, du)) := hD
  have := hasDerivAt_line hD'
  rw [hv] at this
  exact this

theorem IsJac2.line {a : ℕ} {f : Vec n ℝ → Vec k ℝ → Vec a ℝ} {x dx : Vec n ℝ} {u du : Vec k ℝ} {s : ℝ} {A : Mat a n ℝ} {B : Mat a k ℝ}
    (H : IsJac2 f (x + s • dx) (u + s • du) A B) (e : Vec a ℝ) :
    HasDerivAt (fun s : ℝ => f (x + s • dx) (u + s • du) ⬝ᵥ e) ((A *ᵥ dx + B *ᵥ du) ⬝ᵥ e) s := by
  obtain ⟨D, hD, hv⟩ := H
  have hD' : HasFDerivAt _ D (((x, u) : Vec n ℝ × Vec k ℝ) + s • (dx, du)) := hD
  have := hasDerivAt_line hD'
  rw [hv] at this
  have h1 := HasDerivAt.fun_sum (u := (Finset.univ : Finset (Fin a))) fun i _ => ((hasDerivAt_pi.1 this) i).mul_const (e i)
  exact h1

variable {f : Vec n ℝ → Vec k ℝ → ℝ} {D : Vec n ℝ → Vec k ℝ → LDeriv n k ℝ} {xs : Vec n ℝ} {us : Vec k ℝ} {r M : ℝ}

theorem LDeriv.slope_eq (L : LDeriv n k ℝ) (dx : Vec n ℝ) (du : Vec k ℝ) (ex : Vec n ℝ) (eu : Vec k ℝ) :
    L.slope dx du ex eu = L.slope 0 0 ex eu + L.bil ex eu dx du := by
  simp only [LDeriv.slope, LDeriv.bil, mulVec_zero, add_zero, add_dotProduct]; ring

theorem LDeriv.val_eq (L : LDeriv n k ℝ) (dx : Vec n ℝ) (du : Vec k ℝ) :
    L.val dx du = L.slope 0 0 dx du + 1 / 2 * L.bil dx du dx du := by
  simp only [LDeriv.slope, LDeriv.val, LDeriv.bil, mulVec_zero, add_zero, add_dotProduct, tmul_dot]
  rw [dotProduct_comm (L.Lxx *ᵥ dx), dotProduct_comm (L.Lxu *ᵥ du), dotProduct_comm (L.Luu *ᵥ du)]
  ring

namespace TwiceSmooth
variable (H : TwiceSmooth f D xs us r M) {x x' : Vec n ℝ} {u u' : Vec k ℝ} (h0 : sq2 (x - xs) (u - us) ≤ r ^ 2)
  (h1 : sq2 (x' - xs) (u' - us) ≤ r ^ 2)
include H h0 h1

theorem seg {s : ℝ} (hs : s ∈ Icc (0 : ℝ) 1) :
    sq2 (x + s • (x' - x) - xs) (u + s • (u' - u) - us) ≤ r ^ 2 := by
  have e1 : x + s • (x' - x) - xs = (x - xs) + s • (x' - x) := by abel
  have e2 : u + s • (u' - u) - us = (u - us) + s • (u' - u) := by abel
  rw [e1, e2]
  refine sq2_seg h0 ?_ hs
  rwa [sub_add_sub_cancel', sub_add_sub_cancel']

theorem grad_line (ex : Vec n ℝ) (eu : Vec k ℝ) {s : ℝ} (hs : s ∈ Icc (0 : ℝ) 1) :
    HasDerivAt (fun s : ℝ => (D (x + s • (x' - x)) (u + s • (u' - u))).slope 0 0 ex eu)
      ((D (x + s • (x' - x)) (u + s • (u' - u))).bil ex eu (x' - x) (u' - u)) s := by
  have hb := H.seg h0 h1 hs
  have := ((H.hessX _ _ hb).line ex).add ((H.hessU _ _ hb).line eu)
  refine (this.congr_of_eventuallyEq ?_)
  exact Filter.Eventually.of_forall fun s => by simp [LDeriv.slope]

theorem lip_line (ex : Vec n ℝ) (eu : Vec k ℝ) {s : ℝ} (hs : s ∈ Icc (0 : ℝ) 1) :
    |(D (x + s • (x' - x)) (u + s • (u' - u))).bil ex eu (x' - x) (u' - u) - (D x u).bil ex eu (x' - x) (u' - u)| ≤
      M * sq2 (x' - x) (u' - u) * √(sq2 ex eu) * s := by
  have hb := H.seg h0 h1 hs
  refine (H.lip _ _ _ _ h0 hb _ _ _ _).trans (le_of_eq ?_)
  rw [add_sub_cancel_left, add_sub_cancel_left, sq2_smul, Real.sqrt_mul (sq_nonneg _), Real.sqrt_sq hs.1]
  have : √(sq2 (x' - x) (u' - u)) * √(sq2 (x' - x) (u' - u)) = sq2 (x' - x) (u' - u) :=
    Real.mul_self_sqrt (sq2_nonneg _ _)
  calc _ = M * (√(sq2 (x' - x) (u' - u)) * √(sq2 (x' - x) (u' - u))) * √(sq2 ex eu) * s := by ring
    _ = _ := by rw [this]

/-- The gradient differs from its linearisation by a quadratic term. -/
theorem taylor_grad (ex : Vec n ℝ) (eu : Vec k ℝ) :
    |(D x' u').slope 0 0 ex eu - (D x u).slope (x' - x) (u' - u) ex eu| ≤
      M / 2 * sq2 (x' - x) (u' - u) * √(sq2 ex eu) := by
  have := taylor_one (C := M * sq2 (x' - x) (u' - u) * √(sq2 ex eu)) (fun s hs => H.grad_line h0 h1 ex eu hs)
    (fun s hs => by simpa using H.lip_line h0 h1 ex eu hs) (right_mem_Icc.2 zero_le_one)
  rw [LDeriv.slope_eq (D x u)]
  simp only [one_smul, zero_smul, add_zero, add_sub_cancel, one_pow, one_mul, mul_one] at this
  rw [← sub_sub]
  refine this.trans (le_of_eq ?_)
  ring

/-- The cost differs from its quadratic model by a cubic term. -/
theorem taylor_cost :
    |f x' u' - f x u - (D x u).val (x' - x) (u' - u)| ≤ M / 6 * √(sq2 (x' - x) (u' - u)) ^ 3 := by
  have := taylor_two (C := M * sq2 (x' - x) (u' - u) * √(sq2 (x' - x) (u' - u)))
    (h := fun s : ℝ => f (x + s • (x' - x)) (u + s • (u' - u)))
    (fun s hs => ((H.grad _ _ (H.seg h0 h1 hs)).line.congr_deriv (by
      show _ = (D (x + s • (x' - x)) (u + s • (u' - u))).slope 0 0 (x' - x) (u' - u)
      simp [LDeriv.slope]))) (fun s hs => H.grad_line h0 h1 (x' - x) (u' - u) hs)
    (fun s hs => by simpa using H.lip_line h0 h1 (x' - x) (u' - u) hs)
  rw [LDeriv.val_eq]
  simp only [one_smul, zero_smul, add_zero, add_sub_cancel] at this
  rw [← sub_sub]
  refine this.trans (le_of_eq ?_)
  have h2 : √(sq2 (x' - x) (u' - u)) ^ 3 = sq2 (x' - x) (u' - u) * √(sq2 (x' - x) (u' - u)) := by
    rw [pow_succ, Real.sq_sqrt (sq2_nonneg _ _)]
  rw [h2]; ring

end TwiceSmooth

end Smooth

end Nmpc.DDP
