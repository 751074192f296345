import Verif.BoxQP.Generic
import Verif.Base.LinAlg
import Mathlib.Tactic.Linarith
import Mathlib.Tactic.Ring
import Mathlib.Algebra.BigOperators.Fin

/-!
# BoxQP in exact arithmetic: helper lemmas
-/

namespace Nmpc.BoxQP

open Matrix

variable {n : ℕ} {L : LLT ℝ} {c : Config ℝ} {a : Args n ℝ} {o : Obj n ℝ} {r : Result n ℝ}

/-- Specification: the quadratic objective. -/
noncomputable def qp (H : Mat n n ℝ) (g x : Vec n ℝ) : ℝ := g ⬝ᵥ x + 1 / 2 * (x ⬝ᵥ (H *ᵥ x))

/-- Specification: the box. -/
def InBox (l u x : Vec n ℝ) : Prop := ∀ i, l i ≤ x i ∧ x i ≤ u i

theorem objective_eq (H : Mat n n ℝ) (g x : Vec n ℝ) : objective H g x = qp H g x := by
  simp [objective, qp, dotProduct_comm]

/-- Second-order expansion of the objective. -/
theorem qp_expand {H : Mat n n ℝ} (hH : H.IsSymm) (g x d : Vec n ℝ) :
    qp H g (x + d) = qp H g x + (g + H *ᵥ x) ⬝ᵥ d + 1 / 2 * (d ⬝ᵥ (H *ᵥ d)) := by
  have := symm_dot hH d x
  simp only [qp, Matrix.mulVec_add, dotProduct_add, add_dotProduct, dotProduct_comm (H *ᵥ x) d]
  linarith

theorem qp_expand' {H : Mat n n ℝ} (hH : H.IsSymm) (g x y : Vec n ℝ) :
    qp H g y = qp H g x + (g + H *ᵥ x) ⬝ᵥ (y - x) + 1 / 2 * ((y - x) ⬝ᵥ (H *ᵥ (y - x))) := by
  have := qp_expand hH g x (y - x)
  rwa [add_sub_cancel] at this

theorem sum_filter_list {β : Type*} (f : β → Bool) (h : β → ℝ) (l : List β) :
    ((l.filter f).map h).sum = (l.map fun i => if f i then h i else 0).sum := by
  induction l with
  | nil => rfl
  | cons b l ih => by_cases hb : f b <;> simp [hb, ih]

theorem sum_idxs_list (f : Fin n → Bool) (h : Fin n → ℝ) :
    ((idxs f).map h).sum = ∑ i, if f i then h i else 0 := by
  rw [idxs, sum_filter_list, ← Fin.sum_univ_def]

theorem sum_get {β : Type*} (l : List β) (h : β → ℝ) : ∑ k : Fin l.length, h (l.get k) = (l.map h).sum := by
  rw [← List.sum_ofFn]
  congr 1
  conv_rhs => rw [← List.ofFn_get l]
  simp

theorem sum_idxs (f : Fin n → Bool) (h : Fin n → ℝ) :
    ∑ k : Fin (idxs f).length, h ((idxs f).get k) = ∑ i, if f i then h i else 0 := by
  rw [sum_get, sum_idxs_list]

theorem foldl_add {β : Type*} (h : β → ℝ) (l : List β) (z : ℝ) :
    l.foldl (fun acc i => acc + h i) z = z + (l.map h).sum := by
  induction l generalizing z with
  | nil => simp
  | cons b l ih => simp [ih, add_assoc]

theorem freeGradNorm_eq (grad : Vec n ℝ) (f : Fin n → Bool) :
    freeGradNorm grad (idxs f) = ∑ i, if f i then grad i * grad i else 0 := by
  rw [freeGradNorm, foldl_add, zero_add, sum_idxs_list]

theorem mem_idxs {f : Fin n → Bool} {i : Fin n} : i ∈ idxs f ↔ f i = true := by
  simp [idxs]

theorem idxs_nodup (f : Fin n → Bool) : (idxs f).Nodup :=
  (List.nodup_finRange n).filter _

theorem scatter_get (r : List (Fin n)) (hr : r.Nodup) (v : Vec r.length ℝ) (k : Fin r.length) :
    scatter r v (r.get k) = v k := by
  have hm : r.get k ∈ r := List.get_mem _ _
  rw [scatter, dif_pos hm]
  congr 1
  ext
  simpa using hr.idxOf_getElem k.1 k.2

theorem scatter_not_mem (r : List (Fin n)) (v : Vec r.length ℝ) {i : Fin n} (h : i ∉ r) :
    scatter r v i = 0 := by
  rw [scatter, dif_neg h]

/-- Splitting a sum into free and clamped indices. -/
theorem sum_split (f : Fin n → Bool) (h : Fin n → ℝ) :
    ∑ i, h i = ∑ k : Fin (idxs fun i => !f i).length, h ((idxs fun i => !f i).get k) +
      ∑ k : Fin (idxs f).length, h ((idxs f).get k) := by
  rw [sum_idxs, sum_idxs, ← Finset.sum_add_distrib]
  refine Finset.sum_congr rfl fun i _ => ?_
  cases f i <;> simp

theorem scatter_dot (f : Fin n → Bool) (v : Vec (idxs f).length ℝ) (w : Vec n ℝ) :
    scatter (idxs f) v ⬝ᵥ w = v ⬝ᵥ subVec w (idxs f) := by
  rw [dotProduct, dotProduct]
  have h1 : ∑ i, scatter (idxs f) v i * w i =
      ∑ i, if f i then scatter (idxs f) v i * w i else 0 := by
    refine Finset.sum_congr rfl fun i _ => ?_
    cases hf : f i with
    | true => simp
    | false => simp [scatter_not_mem (idxs f) v (i := i) (by simp [mem_idxs, hf])]
  rw [h1, ← sum_idxs f (fun i => scatter (idxs f) v i * w i)]
  refine Finset.sum_congr rfl fun k _ => ?_
  rw [scatter_get _ (idxs_nodup f)]
  rfl

/-- Gradient restricted to the free indices. -/
theorem gradient_free (a : Args n ℝ) (x : Vec n ℝ) (f : Fin n → Bool) :
    subVec (gradient a x) (idxs fun i => !f i) =
      subVec a.g (idxs fun i => !f i)
      + subMat a.H (idxs fun i => !f i) (idxs fun i => !f i) *ᵥ subVec x (idxs fun i => !f i)
      + subMat a.H (idxs fun i => !f i) (idxs f) *ᵥ subVec x (idxs f) := by
  funext k
  simp only [subVec, gradient, Pi.add_apply, mulVec_real, Matrix.mulVec, dotProduct, subMat, add_assoc]
  congr 1
  exact sum_split f (fun j => a.H ((idxs fun i => !f i).get k) j * x j)

theorem subMat_posDef {H : Mat n n ℝ} (hH : H.PosDef) (f : Fin n → Bool) :
    (subMat H (idxs f) (idxs f)).PosDef :=
  hH.submatrix (e := (idxs f).get) (List.nodup_iff_injective_get.1 (idxs_nodup f))

theorem subMat_symm {H : Mat n n ℝ} (hH : H.IsSymm) (l : List (Fin n)) :
    (subMat H l l).IsSymm := by
  ext i j
  exact congrFun (congrFun hH (l.get i)) (l.get j)

/-- The search direction of an iteration whose factorisation succeeded. -/
noncomputable def dirAt (L : LLT ℝ) (a : Args n ℝ) (s : State n ℝ) : Vec n ℝ :=
  scatter (freeAt a s)
    (smulv (-1) (L.solve (subMat a.H (freeAt a s) (freeAt a s))
      (subVec a.g (freeAt a s) +
        FOps.mulVec (subMat a.H (freeAt a s) (idxs (flagsAt a s))) (subVec s.x (idxs (flagsAt a s)))))
      - subVec s.x (freeAt a s))

/-- The free part of the search direction solves `H_ff d_f = - grad_f`. -/
theorem dir_newton (hL : L.Exact) (hH : a.H.PosDef) (s : State n ℝ) :
    subMat a.H (freeAt a s) (freeAt a s) *ᵥ
      (smulv (-1) (L.solve (subMat a.H (freeAt a s) (freeAt a s))
        (subVec a.g (freeAt a s) +
          FOps.mulVec (subMat a.H (freeAt a s) (idxs (flagsAt a s))) (subVec s.x (idxs (flagsAt a s)))))
        - subVec s.x (freeAt a s)) = - subVec (gradient a s.x) (freeAt a s) := by
  have hPD : (subMat a.H (freeAt a s) (freeAt a s)).PosDef := subMat_posDef hH fun i => !flagsAt a s i
  have h1 := hL.solve_eq _ (subVec a.g (freeAt a s) +
          FOps.mulVec (subMat a.H (freeAt a s) (idxs (flagsAt a s))) (subVec s.x (idxs (flagsAt a s)))) hPD
  have h2 : subVec (gradient a s.x) (freeAt a s) = subVec a.g (freeAt a s)
      + subMat a.H (freeAt a s) (freeAt a s) *ᵥ subVec s.x (freeAt a s)
      + subMat a.H (freeAt a s) (idxs (flagsAt a s)) *ᵥ subVec s.x (idxs (flagsAt a s)) :=
    gradient_free a s.x (flagsAt a s)
  rw [h2, smulv_real, Matrix.mulVec_sub, Matrix.mulVec_smul, h1]
  simp only [neg_smul, one_smul, mulVec_real]
  abel

theorem freeGradNorm_dot (a : Args n ℝ) (s : State n ℝ) :
    freeGradNorm (gradient a s.x) (freeAt a s) =
      subVec (gradient a s.x) (freeAt a s) ⬝ᵥ subVec (gradient a s.x) (freeAt a s) := by
  rw [freeAt, freeGradNorm_eq, dotProduct]
  exact (sum_idxs _ (fun i => gradient a s.x i * gradient a s.x i)).symm

/-- Slope along the search direction: never positive, negative unless the free gradient vanishes. -/
theorem dir_slope (hL : L.Exact) (hH : a.H.PosDef) (s : State n ℝ) :
    dirAt L a s ⬝ᵥ gradient a s.x ≤ 0 ∧
      (0 < freeGradNorm (gradient a s.x) (freeAt a s) → dirAt L a s ⬝ᵥ gradient a s.x < 0) := by
  have hn := dir_newton hL hH s
  have hPD := subMat_posDef hH fun i => !flagsAt a s i
  change (subMat a.H (freeAt a s) (freeAt a s)).PosDef at hPD
  have hd : dirAt L a s ⬝ᵥ gradient a s.x = _ := scatter_dot (fun i => !flagsAt a s i) _ _
  rw [hd]
  generalize hv : (smulv (-1) (L.solve (subMat a.H (freeAt a s) (freeAt a s))
        (subVec a.g (freeAt a s) +
          FOps.mulVec (subMat a.H (freeAt a s) (idxs (flagsAt a s))) (subVec s.x (idxs (flagsAt a s)))))
        - subVec s.x (freeAt a s)) = v at hn ⊢
  change v ⬝ᵥ subVec (gradient a s.x) (freeAt a s) ≤ 0 ∧ (_ → v ⬝ᵥ subVec (gradient a s.x) (freeAt a s) < 0)
  have hg : subVec (gradient a s.x) (freeAt a s) = - (subMat a.H (freeAt a s) (freeAt a s) *ᵥ v) := by
    rw [hn, neg_neg]
  rw [freeGradNorm_dot, hg, dotProduct_neg]
  rw [posDef_iff] at hPD
  by_cases hv0 : v = 0
  · subst hv0; simp
  · have := hPD.2 v hv0
    exact ⟨by linarith, fun _ => by linarith⟩

end Nmpc.BoxQP
