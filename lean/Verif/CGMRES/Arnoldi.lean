import Verif.CGMRES.Gmres
import Verif.Base.LinAlg
import Mathlib.Algebra.BigOperators.Intervals
import Mathlib.Tactic.FieldSimp
import Mathlib.Tactic.Linarith
import Mathlib.Tactic.Module
import Mathlib.Tactic.Ring

/-!
# Helper lemmas for GMRES: loop skeleton, Arnoldi process, Givens rotations
-/

set_option linter.unusedSectionVars false

namespace Nmpc.Gmres

open Matrix

section Generic
variable {α : Type} [Add α] [Sub α] [Mul α] [Div α] [Neg α] [Zero α] [One α] [FOps α] {n : ℕ}
variable (L : Dense α) (cfg : Config α) (A : Vec n α → Vec n α) (b x : Vec n α)

/-- State after `k` rounds of the loop body (whether or not the loop would have stopped before). -/
def S (k : ℕ) : State n α := (iter L cfg A)^[k] (init A b x)

@[simp] theorem S_zero : S L cfg A b x 0 = init A b x := rfl

theorem S_succ (k : ℕ) : S L cfg A b x (k + 1) = iter L cfg A (S L cfg A b x k) := by
  unfold S; rw [Function.iterate_succ_apply']

theorem iter_k (st : State n α) : (iter L cfg A st).k = st.k + 1 := by
  unfold iter; dsimp only; split <;> rfl

theorem iter_err (st : State n α) : (iter L cfg A st).err = st.err ++ [(iter L cfg A st).rho] := by
  unfold iter; dsimp only; split <;> rfl

@[simp] theorem S_k (k : ℕ) : (S L cfg A b x k).k = k := by
  induction k with
  | zero => rfl
  | succ k ih => rw [S_succ, iter_k, ih]

theorem S_err (k : ℕ) : (S L cfg A b x k).err = (List.range (k + 1)).map fun i => (S L cfg A b x i).rho := by
  induction k with
  | zero => rfl
  | succ k ih => rw [S_succ, iter_err, ih, ← S_succ, List.range_succ (n := k + 1)]; simp

/-- The loop stops after `k` rounds. -/
structure Stops (K k : ℕ) : Prop where
  le : k ≤ K
  cont : ∀ j < k, ltb (cfg.eps * vnorm b) (S L cfg A b x j).rho = true
  stop : k = K ∨ ltb (cfg.eps * vnorm b) (S L cfg A b x k).rho = false

theorem loop_S (K : ℕ) : ∃ k, Stops L cfg A b x K k ∧
    loop L cfg A (vnorm b) K (init A b x) = S L cfg A b x k := by
  suffices ∀ r j, j + r = K → (∀ i < j, ltb (cfg.eps * vnorm b) (S L cfg A b x i).rho = true) →
      ∃ k, Stops L cfg A b x K k ∧ loop L cfg A (vnorm b) r (S L cfg A b x j) = S L cfg A b x k from
    this K 0 (by omega) (by intro i hi; omega)
  intro r
  induction r with
  | zero => intro j hj hc; exact ⟨j, ⟨by omega, hc, Or.inl (by omega)⟩, rfl⟩
  | succ r ih =>
    intro j hj hc
    unfold loop
    by_cases h : ltb (cfg.eps * vnorm b) (S L cfg A b x j).rho = true
    · rw [if_pos h, ← S_succ]
      refine ih (j + 1) (by omega) ?_
      intro i hi
      rcases Nat.lt_succ_iff_lt_or_eq.mp hi with h' | h'
      · exact hc i h'
      · rw [h']; exact h
    · rw [if_neg h]
      exact ⟨j, ⟨by omega, hc, Or.inr (by simpa using h)⟩, rfl⟩

theorem Stops.unique {K k k' : ℕ} (h : Stops L cfg A b x K k) (h' : Stops L cfg A b x K k') : k = k' := by
  rcases lt_trichotomy k k' with hlt | heq | hlt
  · have := h'.cont k hlt
    rcases h.stop with hs | hs
    · have := h'.le; omega
    · rw [this] at hs; cases hs
  · exact heq
  · have := h.cont k' hlt
    rcases h'.stop with hs | hs
    · have := h.le; omega
    · rw [this] at hs; cases hs

theorem solve_ok {r : Out n α} (h : solve L cfg A b x = .ok r) :
    0 ≤ cfg.kMax ∧ Stops L cfg A b x (min cfg.kMax n).toNat r.k ∧ r = finish L cfg x (S L cfg A b x r.k) := by
  unfold solve at h
  split at h
  · cases h
  · rename_i hk
    obtain ⟨k, h1, h2⟩ := loop_S L cfg A b x (min cfg.kMax n).toNat
    rw [h2] at h
    cases h
    refine ⟨by omega, ?_, ?_⟩
    · simpa [finish] using h1
    · simp [finish]

theorem solve_of_stops (h0 : 0 ≤ cfg.kMax) {k : ℕ} (h : Stops L cfg A b x (min cfg.kMax n).toNat k) :
    solve L cfg A b x = .ok (finish L cfg x (S L cfg A b x k)) := by
  unfold solve
  rw [if_neg (by omega)]
  obtain ⟨k', h1, h2⟩ := loop_S L cfg A b x (min cfg.kMax n).toNat
  rw [h2, h.unique L cfg A b x h1]

/-- The body does not depend on `k_max` and `eps`. -/
theorem S_congr {cfg cfg' : Config α} (h1 : cfg.makeTriangular = cfg'.makeTriangular)
    (h2 : cfg.applyReorth = cfg'.applyReorth) (k : ℕ) : S L cfg A b x k = S L cfg' A b x k := by
  unfold S
  have : iter L cfg A = iter L cfg' A := by
    funext st; unfold iter; rw [h1, h2]
  rw [this]

/-- Final form of basis vector `i`. -/
def V (i : ℕ) : Vec n α := (S L cfg A b x i).basis i

/-- Arnoldi column `j` (Hessenberg matrix before rotations). -/
def hes (i j : ℕ) : α :=
  (arnoldi cfg.applyReorth (S L cfg A b x j).basis j (fun i => (S L cfg A b x j).H i j)
    (A ((S L cfg A b x j).basis j))).1 i

/-- The new direction of round `j`. -/
def wdir (j : ℕ) : Vec n α :=
  (arnoldi cfg.applyReorth (S L cfg A b x j).basis j (fun i => (S L cfg A b x j).H i j)
    (A ((S L cfg A b x j).basis j))).2

theorem S_basis_succ (k : ℕ) : (S L cfg A b x (k + 1)).basis =
    Function.update (S L cfg A b x k).basis (k + 1) (normalized (wdir L cfg A b x k)) := by
  rw [S_succ]; unfold iter wdir; dsimp only; rw [S_k]; split <;> rfl

theorem S_basis {i k : ℕ} (h : i ≤ k) : (S L cfg A b x k).basis i = V L cfg A b x i := by
  induction k with
  | zero => obtain rfl : i = 0 := by omega
            rfl
  | succ k ih =>
    rcases Nat.le_succ_iff.mp h with h' | h'
    · rw [S_basis_succ, Function.update_of_ne (by omega), ih h']
    · rw [h']; rfl

theorem V_zero : V L cfg A b x 0 = normalized (b - A x) := rfl

theorem V_succ (k : ℕ) : V L cfg A b x (k + 1) = normalized (wdir L cfg A b x k) := by
  unfold V; rw [S_basis_succ, Function.update_self]

theorem S_H_of_le {k l : ℕ} (h : k ≤ l) (i : ℕ) : (S L cfg A b x k).H i l = 0 := by
  induction k with
  | zero => rfl
  | succ k ih =>
    have : (S L cfg A b x (k + 1)).H i l = (S L cfg A b x k).H i l := by
      rw [S_succ]; unfold iter triStep lsqStep; dsimp only; rw [S_k]
      split <;> simp [setCol, show l ≠ k by omega]
    rw [this, ih (by omega)]

theorem S_H_stable {k l : ℕ} (h : l < k) (i : ℕ) : (S L cfg A b x k).H i l = (S L cfg A b x (l + 1)).H i l := by
  induction k with
  | zero => omega
  | succ k ih =>
    rcases Nat.lt_succ_iff_lt_or_eq.mp h with h' | h'
    · rw [← ih h', S_succ]; unfold iter triStep lsqStep; dsimp only; rw [S_k]
      split <;> simp [setCol, show l ≠ k by omega]
    · rw [h']

/-- The Arnoldi process depends only on the basis below `k + 1`. -/
theorem forUp_congr {σ : Type} {k : ℕ} {f g : ℕ → σ → σ} (h : ∀ i < k, f i = g i) (s : σ) :
    forUp k f s = forUp k g s := by
  induction k with
  | zero => rfl
  | succ k ih => unfold forUp; rw [h k (by omega), ih fun i hi => h i (by omega)]

theorem arnoldi_congr {reo : Bool} {v v' : ℕ → Vec n α} {k : ℕ} (h : ∀ i ≤ k, v i = v' i) (z : ℕ → α) (w : Vec n α) :
    arnoldi reo v k z w = arnoldi reo v' k z w := by
  have h1 : ∀ z w, mgs v (k + 1) z w = mgs v' (k + 1) z w := by
    intro z w; unfold mgs; exact forUp_congr (fun i hi => by rw [h i (by omega)]) _
  have h2 : ∀ z w, reorth v (k + 1) z w = reorth v' (k + 1) z w := by
    intro z w; unfold reorth; exact forUp_congr (fun i hi => by rw [h i (by omega)]) _
  unfold arnoldi; simp only [h1, h2]

theorem hes_eq (j : ℕ) : (fun i => hes L cfg A b x i j, wdir L cfg A b x j) =
    arnoldi cfg.applyReorth (V L cfg A b x) j (fun _ => 0) (A (V L cfg A b x j)) := by
  unfold hes wdir
  rw [show (fun i => (S L cfg A b x j).H i j) = fun _ => 0 from funext fun i => S_H_of_le L cfg A b x le_rfl i,
    S_basis L cfg A b x le_rfl, arnoldi_congr fun i hi => S_basis L cfg A b x hi]

theorem iter_S (k : ℕ) : S L cfg A b x (k + 1) =
    (if cfg.makeTriangular then
      triStep { S L cfg A b x k with
        basis := Function.update (S L cfg A b x k).basis (k + 1) (V L cfg A b x (k + 1)) }
        fun i => hes L cfg A b x i k
    else lsqStep L { S L cfg A b x k with
        basis := Function.update (S L cfg A b x k).basis (k + 1) (V L cfg A b x (k + 1)) }
        fun i => hes L cfg A b x i k) := by
  rw [S_succ, V_succ]; unfold iter wdir hes; dsimp only; rw [S_k]

theorem rots_congr {c s c' s' : ℕ → α} {k : ℕ} (h1 : ∀ i < k, c i = c' i) (h2 : ∀ i < k, s i = s' i) (z : ℕ → α) :
    rots c s k z = rots c' s' k z := by
  unfold rots; exact forUp_congr (fun i hi => by rw [h1 i hi, h2 i hi]) _

theorem rots_succ (c s : ℕ → α) (k : ℕ) (z : ℕ → α) :
    rots c s (k + 1) z = rot (c k) (s k) k (rots c s k z) := rfl

theorem rots_of_gt (c s : ℕ → α) (k : ℕ) (z : ℕ → α) {i : ℕ} (h : k < i) : rots c s k z i = z i := by
  induction k with
  | zero => rfl
  | succ k ih =>
    rw [rots_succ]; unfold rot
    rw [Function.update_of_ne (by omega), Function.update_of_ne (by omega), ih (by omega)]

end Generic

/-! ## Exact arithmetic -/

section Real
variable {n : ℕ}

theorem dot_self_nonneg' (v : Vec n ℝ) : 0 ≤ v ⬝ᵥ v := by
  unfold dotProduct; exact Finset.sum_nonneg fun i _ => mul_self_nonneg _

theorem dot_self_eq_zero' {v : Vec n ℝ} : v ⬝ᵥ v = 0 ↔ v = 0 := by
  unfold dotProduct
  rw [Finset.sum_eq_zero_iff_of_nonneg fun i _ => mul_self_nonneg _]
  simp [funext_iff]

theorem vnorm_real (v : Vec n ℝ) : vnorm v = Real.sqrt (v ⬝ᵥ v) := rfl

theorem vnorm_sq (v : Vec n ℝ) : vnorm v ^ 2 = v ⬝ᵥ v := by
  rw [vnorm_real, Real.sq_sqrt (dot_self_nonneg' v)]

theorem vnorm_nonneg (v : Vec n ℝ) : 0 ≤ vnorm v := Real.sqrt_nonneg _

theorem vnorm_eq_zero {v : Vec n ℝ} : vnorm v = 0 ↔ v = 0 := by
  rw [vnorm_real, Real.sqrt_eq_zero (dot_self_nonneg' v), dot_self_eq_zero']

theorem normalized_zero {w : Vec n ℝ} (h : w = 0) : normalized w = 0 := by
  subst h; unfold normalized; simp

theorem normalized_ne {w : Vec n ℝ} (h : w ≠ 0) : normalized w = (vnorm w)⁻¹ • w := by
  have : 0 < w ⬝ᵥ w := lt_of_le_of_ne (dot_self_nonneg' w) fun h' => h (dot_self_eq_zero'.mp h'.symm)
  unfold normalized
  rw [if_pos (by simpa using this)]
  funext i
  simp only [sqNorm_real, sqrt_real, Pi.smul_apply, smul_eq_mul, vnorm_real]
  rw [div_eq_inv_mul]

theorem vnorm_smul_normalized (w : Vec n ℝ) : vnorm w • normalized w = w := by
  by_cases h : w = 0
  · rw [normalized_zero h, h, smul_zero]
  · rw [normalized_ne h, smul_smul, mul_inv_cancel₀ (mt vnorm_eq_zero.mp h), one_smul]

theorem normalized_unit {w : Vec n ℝ} (h : w ≠ 0) : normalized w ⬝ᵥ normalized w = 1 := by
  rw [normalized_ne h, smul_dotProduct, dotProduct_smul, ← vnorm_sq]
  have := mt vnorm_eq_zero.mp h
  simp only [smul_eq_mul]; field_simp

theorem normalized_eq_zero {w : Vec n ℝ} : normalized w = 0 ↔ w = 0 := by
  refine ⟨fun h => ?_, normalized_zero⟩
  have := vnorm_smul_normalized w
  rw [h, smul_zero] at this; exact this.symm

theorem normalized_dot {w v : Vec n ℝ} (h : w ⬝ᵥ v = 0) : normalized w ⬝ᵥ v = 0 := by
  by_cases hw : w = 0
  · rw [normalized_zero hw, zero_dotProduct]
  · rw [normalized_ne hw, smul_dotProduct, h, smul_zero]

/-- Pairwise orthogonal, every vector a unit vector or zero. -/
def Ortho (v : ℕ → Vec n ℝ) (m : ℕ) : Prop :=
  (∀ i < m, ∀ j < m, i ≠ j → v i ⬝ᵥ v j = 0) ∧ ∀ i < m, v i ⬝ᵥ v i = 1 ∨ v i = 0

theorem mgs_succ (v : ℕ → Vec n ℝ) (k : ℕ) (h : ℕ → ℝ) (w : Vec n ℝ) : mgs v (k + 1) h w =
    (Function.update (mgs v k h w).1 k ((mgs v k h w).2 ⬝ᵥ v k),
      (mgs v k h w).2 - ((mgs v k h w).2 ⬝ᵥ v k) • v k) := rfl

theorem mgs_ge (v : ℕ → Vec n ℝ) (k : ℕ) (h : ℕ → ℝ) (w : Vec n ℝ) {j : ℕ} (hj : k ≤ j) :
    (mgs v k h w).1 j = h j := by
  induction k with
  | zero => rfl
  | succ k ih => rw [mgs_succ]; dsimp only; rw [Function.update_of_ne (by omega), ih (by omega)]

theorem mgs_eq (v : ℕ → Vec n ℝ) (k : ℕ) (h : ℕ → ℝ) (w : Vec n ℝ) :
    w = (mgs v k h w).2 + ∑ j ∈ Finset.range k, (mgs v k h w).1 j • v j := by
  induction k with
  | zero => simp [mgs, forUp]
  | succ k ih =>
    rw [Finset.sum_range_succ, mgs_succ]; dsimp only
    rw [Function.update_self, Finset.sum_congr rfl (g := fun j => (mgs v k h w).1 j • v j) (by
      intro j hj; rw [Function.update_of_ne (by simp at hj; omega)])]
    nth_rewrite 1 [ih]
    abel

theorem mgs_dot {v : ℕ → Vec n ℝ} {k : ℕ} (ho : Ortho v k) (h : ℕ → ℝ) (w : Vec n ℝ) {j : ℕ} (hj : j < k) :
    (mgs v k h w).2 ⬝ᵥ v j = 0 := by
  induction k with
  | zero => omega
  | succ k ih =>
    rw [mgs_succ]; dsimp only
    rw [sub_dotProduct, smul_dotProduct, smul_eq_mul]
    rcases Nat.lt_succ_iff_lt_or_eq.mp hj with h' | h'
    · rw [ih ⟨fun i hi l hl => ho.1 i (by omega) l (by omega), fun i hi => ho.2 i (by omega)⟩ h',
        ho.1 k (by omega) j (by omega) (by omega)]; ring
    · subst h'
      rcases ho.2 j (by omega) with h1 | h1
      · rw [h1]; ring
      · rw [h1, dotProduct_zero]; ring

theorem mgs_zero {v : ℕ → Vec n ℝ} {k : ℕ} (h : ℕ → ℝ) (w : Vec n ℝ) {j : ℕ} (hj : j < k) (hv : v j = 0) :
    (mgs v k h w).1 j = 0 := by
  induction k with
  | zero => omega
  | succ k ih =>
    rw [mgs_succ]; dsimp only
    rcases Nat.lt_succ_iff_lt_or_eq.mp hj with h' | h'
    · rw [Function.update_of_ne (by omega), ih h']
    · subst h'; rw [Function.update_self, hv, dotProduct_zero]

theorem reorth_eq {v : ℕ → Vec n ℝ} {k : ℕ} {h : ℕ → ℝ} {w : Vec n ℝ} (hw : ∀ j < k, w ⬝ᵥ v j = 0) :
    reorth v k h w = (h, w) := by
  induction k with
  | zero => rfl
  | succ k ih =>
    have : reorth v (k + 1) h w = (fun q : (ℕ → ℝ) × Vec n ℝ =>
      (Function.update q.1 k (q.1 k + q.2 ⬝ᵥ v k), q.2 - (q.2 ⬝ᵥ v k) • v k)) (reorth v k h w) := rfl
    rw [this, ih fun j hj => hw j (by omega)]
    simp [hw k (by omega)]

theorem arnoldi_eq {reo : Bool} {v : ℕ → Vec n ℝ} {k : ℕ} (ho : Ortho v (k + 1)) (h : ℕ → ℝ) (w : Vec n ℝ) :
    arnoldi reo v k h w = (Function.update (mgs v (k + 1) h w).1 (k + 1) (vnorm (mgs v (k + 1) h w).2),
      (mgs v (k + 1) h w).2) := by
  unfold arnoldi; dsimp only
  split
  · rw [reorth_eq fun j hj => mgs_dot ho h w hj]
  · rfl

variable (L : Dense ℝ) (cfg : Config ℝ) (A : Vec n ℝ → Vec n ℝ) (b x : Vec n ℝ)

theorem ortho_V (m : ℕ) : Ortho (V L cfg A b x) (m + 1) := by
  induction m with
  | zero =>
    refine ⟨fun i hi j hj hij => by omega, fun i hi => ?_⟩
    obtain rfl : i = 0 := by omega
    rw [V_zero]
    by_cases h : b - A x = 0
    · exact Or.inr (normalized_zero h)
    · exact Or.inl (normalized_unit h)
  | succ m ih =>
    have hw : V L cfg A b x (m + 1) =
        normalized (mgs (V L cfg A b x) (m + 1) (fun _ => 0) (A (V L cfg A b x m))).2 := by
      rw [V_succ, show wdir L cfg A b x m = _ from congrArg Prod.snd (hes_eq L cfg A b x m), arnoldi_eq ih]
    have hd : ∀ j < m + 1, V L cfg A b x (m + 1) ⬝ᵥ V L cfg A b x j = 0 := by
      intro j hj; rw [hw]; exact normalized_dot (mgs_dot ih _ _ hj)
    refine ⟨fun i hi j hj hij => ?_, fun i hi => ?_⟩
    · rcases Nat.lt_succ_iff_lt_or_eq.mp hi with h1 | h1 <;> rcases Nat.lt_succ_iff_lt_or_eq.mp hj with h2 | h2
      · exact ih.1 i h1 j h2 hij
      · rw [h2, dotProduct_comm]; exact hd i h1
      · rw [h1]; exact hd j h2
      · omega
    · rcases Nat.lt_succ_iff_lt_or_eq.mp hi with h1 | h1
      · exact ih.2 i h1
      · rw [h1, hw]
        by_cases h : (mgs (V L cfg A b x) (m + 1) (fun _ => 0) (A (V L cfg A b x m))).2 = 0
        · exact Or.inr (normalized_zero h)
        · exact Or.inl (normalized_unit h)

theorem V_dot {i j : ℕ} (h : i ≠ j) : V L cfg A b x i ⬝ᵥ V L cfg A b x j = 0 :=
  (ortho_V L cfg A b x (max i j)).1 i (by omega) j (by omega) h

theorem V_unit (i : ℕ) : V L cfg A b x i ⬝ᵥ V L cfg A b x i = 1 ∨ V L cfg A b x i = 0 :=
  (ortho_V L cfg A b x i).2 i (by omega)

theorem hes_col (j : ℕ) : (fun i => hes L cfg A b x i j) =
    Function.update (mgs (V L cfg A b x) (j + 1) (fun _ => 0) (A (V L cfg A b x j))).1 (j + 1)
      (vnorm (mgs (V L cfg A b x) (j + 1) (fun _ => 0) (A (V L cfg A b x j))).2) := by
  have := congrArg Prod.fst (hes_eq L cfg A b x j)
  rw [arnoldi_eq (ortho_V L cfg A b x j)] at this
  exact this

theorem wdir_eq (j : ℕ) : wdir L cfg A b x j =
    (mgs (V L cfg A b x) (j + 1) (fun _ => 0) (A (V L cfg A b x j))).2 := by
  have := congrArg Prod.snd (hes_eq L cfg A b x j)
  rw [arnoldi_eq (ortho_V L cfg A b x j)] at this
  exact this

theorem hes_sub (j : ℕ) : hes L cfg A b x (j + 1) j = vnorm (wdir L cfg A b x j) := by
  have := congrFun (hes_col L cfg A b x j) (j + 1)
  rw [this, Function.update_self, wdir_eq]

theorem hes_gt {i j : ℕ} (h : j + 1 < i) : hes L cfg A b x i j = 0 := by
  have := congrFun (hes_col L cfg A b x j) i
  rw [this, Function.update_of_ne (by omega), mgs_ge _ _ _ _ (by omega)]

/-- The Arnoldi relation. -/
theorem arnoldi_rel (j : ℕ) : A (V L cfg A b x j) =
    ∑ i ∈ Finset.range (j + 2), hes L cfg A b x i j • V L cfg A b x i := by
  rw [Finset.sum_range_succ, hes_sub, V_succ, vnorm_smul_normalized, wdir_eq]
  rw [Finset.sum_congr rfl (g := fun i =>
    (mgs (V L cfg A b x) (j + 1) (fun _ => 0) (A (V L cfg A b x j))).1 i • V L cfg A b x i) (by
      intro i hi
      have := congrFun (hes_col L cfg A b x j) i
      rw [this, Function.update_of_ne (by simp at hi; omega)])]
  rw [add_comm]
  exact mgs_eq _ _ _ _

theorem hes_zero {i j : ℕ} (h : V L cfg A b x i = 0) : hes L cfg A b x i j = 0 := by
  rcases lt_trichotomy i (j + 1) with h' | h' | h'
  · have := congrFun (hes_col L cfg A b x j) i
    rw [this, Function.update_of_ne (by omega), mgs_zero _ _ h' h]
  · subst h'
    rw [hes_sub, vnorm_eq_zero]
    rw [V_succ, normalized_eq_zero] at h; exact h
  · exact hes_gt L cfg A b x h'

theorem V_succ_eq_zero {j : ℕ} : V L cfg A b x (j + 1) = 0 ↔ hes L cfg A b x (j + 1) j = 0 := by
  rw [hes_sub, V_succ, normalized_eq_zero, vnorm_eq_zero]

theorem res_V0 : vnorm (b - A x) • V L cfg A b x 0 = b - A x := by
  rw [V_zero, vnorm_smul_normalized]

theorem V0_eq_zero : V L cfg A b x 0 = 0 ↔ vnorm (b - A x) = 0 := by
  rw [V_zero, normalized_eq_zero, vnorm_eq_zero]

/-! ### Rotations -/

theorem rot_add (c s : ℝ) (i : ℕ) (z w : ℕ → ℝ) : rot c s i (z + w) = rot c s i z + rot c s i w := by
  funext l; unfold rot; simp only [Function.update_apply, Pi.add_apply]
  split_ifs <;> ring

theorem rot_smul (c s : ℝ) (i : ℕ) (a : ℝ) (z : ℕ → ℝ) : rot c s i (a • z) = a • rot c s i z := by
  funext l; unfold rot; simp only [Function.update_apply, Pi.smul_apply, smul_eq_mul]
  split_ifs <;> ring

/-- The rotations as a linear map. -/
def rotsL (c s : ℕ → ℝ) (k : ℕ) : (ℕ → ℝ) →ₗ[ℝ] (ℕ → ℝ) where
  toFun := rots c s k
  map_add' z w := by
    induction k with
    | zero => rfl
    | succ k ih => rw [rots_succ, ih, rot_add]; rfl
  map_smul' a z := by
    induction k with
    | zero => rfl
    | succ k ih => rw [rots_succ, ih]; exact rot_smul _ _ _ _ _

theorem rots_sqsum {c s : ℕ → ℝ} {k : ℕ} (h : ∀ i < k, c i ^ 2 + s i ^ 2 = 1) (z : ℕ → ℝ) :
    ∑ i ∈ Finset.range (k + 1), rots c s k z i ^ 2 = ∑ i ∈ Finset.range (k + 1), z i ^ 2 := by
  induction k with
  | zero => rfl
  | succ k ih =>
    rw [Finset.sum_range_succ, Finset.sum_range_succ, Finset.sum_range_succ (fun i => z i ^ 2) (k + 1),
      ← ih fun i hi => h i (by omega), Finset.sum_range_succ, rots_succ]
    have h1 : ∀ i ∈ Finset.range k, rot (c k) (s k) k (rots c s k z) i ^ 2 = rots c s k z i ^ 2 := by
      intro i hi
      simp at hi
      unfold rot; rw [Function.update_of_ne (by omega), Function.update_of_ne (by omega)]
    rw [Finset.sum_congr rfl h1]
    have h2 : rot (c k) (s k) k (rots c s k z) k = c k * rots c s k z k - s k * z (k + 1) := by
      unfold rot; rw [Function.update_of_ne (by omega), Function.update_self,
        rots_of_gt _ _ _ _ (Nat.lt_succ_self k)]
    have h3 : rot (c k) (s k) k (rots c s k z) (k + 1) = s k * rots c s k z k + c k * z (k + 1) := by
      unfold rot; rw [Function.update_self, rots_of_gt _ _ _ _ (Nat.lt_succ_self k)]
    rw [h2, h3]
    linear_combination (rots c s k z k ^ 2 + z (k + 1) ^ 2) * h k (by omega)

theorem rot_of_zero {c s : ℝ} {i : ℕ} {z : ℕ → ℝ} (h1 : z i = 0) (h2 : z (i + 1) = 0) : rot c s i z = z := by
  funext l; unfold rot; simp only [Function.update_apply]
  split_ifs with h h'
  · rw [h, h1, h2]; ring
  · rw [h', h1, h2]; ring
  · rfl

end Real
end Nmpc.Gmres
