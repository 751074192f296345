import Verif.CGMRES.Arnoldi
import Verif.CGMRES.Sweep
import Verif.CGMRES.Continuation
import Verif.CGMRES.Sim
import Verif.BoxQP.Mirror

/-!
# C/GMRES does not depend on coordinates or on the scale of the cost (C128), in exact arithmetic

GMRES is run on `A' (Q v) = c Q (A v)` and `b' = c Q b` with an isometry `Q` and a positive `c`.
-/

namespace Nmpc.Gmres

open Matrix

variable {n : ℕ}

/-- The dense solvers give the same answer when the matrix and the right-hand side are multiplied by the same number. -/
structure Dense.Homogeneous (L : Dense ℝ) (c : ℝ) : Prop where
  qr : ∀ {k : ℕ} (A : Mat (k + 1) k ℝ) (b : Vec (k + 1) ℝ), L.qr (c • A) (c • b) = L.qr A b
  tri : ∀ {k : ℕ} (A : Mat k k ℝ) (b : Vec k ℝ), L.tri (c • A) (c • b) = L.tri A b

theorem Dense.homogeneous_one (L : Dense ℝ) : L.Homogeneous 1 := ⟨by simp, by simp⟩

/-- One column of the back substitution. -/
private noncomputable def bsStep {k : ℕ} (U : Mat k k ℝ) (i : ℕ) (r : Vec k ℝ) : Vec k ℝ :=
  if h : i < k then
    if eqb (r ⟨i, h⟩) 0 then r
    else
      let yi := r ⟨i, h⟩ / U ⟨i, h⟩ ⟨i, h⟩
      fun j => if (j : ℕ) = i then yi else if (j : ℕ) < i then r j - yi * U j ⟨i, h⟩ else r j
  else r

private theorem bsStep_zero {k : ℕ} (U : Mat k k ℝ) {i : ℕ} (hi : i < k) {r : Vec k ℝ} (h : r ⟨i, hi⟩ = 0) : bsStep U i r = r := by
  unfold bsStep
  rw [dif_pos hi, if_pos (by rw [eqb_real, h])]

private theorem bsStep_ne {k : ℕ} (U : Mat k k ℝ) {i : ℕ} (hi : i < k) {r : Vec k ℝ} (h : r ⟨i, hi⟩ ≠ 0) (j : Fin k) :
    bsStep U i r j = if (j : ℕ) = i then r ⟨i, hi⟩ / U ⟨i, hi⟩ ⟨i, hi⟩
      else if (j : ℕ) < i then r j - r ⟨i, hi⟩ / U ⟨i, hi⟩ ⟨i, hi⟩ * U j ⟨i, hi⟩ else r j := by
  unfold bsStep
  rw [dif_pos hi, if_neg (by rwa [eqb_real])]

/-- Back substitution is homogeneous. -/
theorem backSub_homogeneous {c : ℝ} (hc : c ≠ 0) {k : ℕ} (U : Mat k k ℝ) (g : Vec k ℝ) :
    backSub (c • U) (c • g) = backSub U g := by
  suffices h : ∀ j ≤ k, ∀ r r' : Vec k ℝ, (∀ i : Fin k, r' i = if (i : ℕ) < j then c * r i else r i) →
      forDown j (bsStep (c • U)) r' = forDown j (bsStep U) r from
    h k le_rfl g (c • g) fun i => by rw [if_pos i.2]; rfl
  intro j
  induction j with
  | zero =>
    intro _ r r' h
    unfold forDown
    funext i
    rw [h i, if_neg (by omega)]
  | succ j ih =>
    intro hj r r' h
    have hjk : j < k := by omega
    unfold forDown
    refine ih (by omega) _ _ fun i => ?_
    have h0 : r' ⟨j, hjk⟩ = c * r ⟨j, hjk⟩ := by rw [h, if_pos (by simp)]
    by_cases hz : r ⟨j, hjk⟩ = 0
    · rw [bsStep_zero _ hjk (by rw [h0, hz, mul_zero]), bsStep_zero _ hjk hz, h]
      by_cases h1 : (i : ℕ) < j
      · rw [if_pos h1, if_pos (by omega)]
      · rw [if_neg h1]
        by_cases h2 : (i : ℕ) < j + 1
        · have : i = ⟨j, hjk⟩ := Fin.ext (by simp; omega)
          rw [if_pos h2, this, hz, mul_zero]
        · rw [if_neg h2]
    · have hz' : ¬ c * r ⟨j, hjk⟩ = 0 := mul_ne_zero hc hz
      rw [bsStep_ne _ hjk (by rwa [h0]), bsStep_ne _ hjk hz, h0, Matrix.smul_apply, Matrix.smul_apply, smul_eq_mul, smul_eq_mul,
        mul_div_mul_left _ _ hc, h]
      by_cases h1 : (i : ℕ) = j
      · rw [if_pos h1, if_pos h1, if_neg (by omega)]
      · rw [if_neg h1, if_neg h1]
        by_cases h2 : (i : ℕ) < j
        · rw [if_pos h2, if_pos h2, if_pos h2, if_pos (by omega)]; ring
        · rw [if_neg h2, if_neg h2, if_neg h2, if_neg (by omega)]

/-- A linear isometry. -/
structure Iso (Q : Vec n ℝ →ₗ[ℝ] Vec n ℝ) : Prop where
  dot : ∀ v w, Q v ⬝ᵥ Q w = v ⬝ᵥ w

section
variable {Q : Vec n ℝ →ₗ[ℝ] Vec n ℝ} {c : ℝ}

/-- The state of the loop for the transformed equation. -/
def State.image (Q : Vec n ℝ →ₗ[ℝ] Vec n ℝ) (c : ℝ) (st : State n ℝ) : State n ℝ :=
  { st with
    basis := fun j => Q (st.basis j), H := fun i j => c * st.H i j, g := fun i => c * st.g i, rho := c * st.rho
    err := st.err.map (c * ·) }

/-- The outcome for the transformed equation: solution and basis are moved by `Q`; residuals, Hessenberg matrix and right-hand side are
multiplied by `c`. -/
def Out.image (Q : Vec n ℝ →ₗ[ℝ] Vec n ℝ) (c : ℝ) (o : Out n ℝ) : Out n ℝ :=
  { x := Q o.x, k := o.k, err := o.err.map (c * ·), basis := o.basis.map Q, H := fun i j => c * o.H i j, g := fun i => c * o.g i }

theorem vnorm_image (hQ : Iso Q) (hc : 0 < c) (w : Vec n ℝ) : vnorm (c • Q w) = c * vnorm w := by
  rw [vnorm_real, vnorm_real, smul_dotProduct, dotProduct_smul, hQ.dot, smul_smul, smul_eq_mul, Real.sqrt_mul (by positivity),
    Real.sqrt_mul_self hc.le]

theorem vnorm_scale {k : ℕ} (hc : 0 < c) (w : Vec k ℝ) : vnorm (c • w) = c * vnorm w := by
  rw [vnorm_real, vnorm_real, smul_dotProduct, dotProduct_smul, smul_smul, smul_eq_mul, Real.sqrt_mul (by positivity),
    Real.sqrt_mul_self hc.le]

theorem normalized_image (hQ : Iso Q) (hc : 0 < c) (w : Vec n ℝ) : normalized (c • Q w) = Q (normalized w) := by
  by_cases hw : w = 0
  · subst hw
    rw [map_zero, smul_zero, normalized_zero rfl, map_zero]
  · have h1 : c • Q w ≠ 0 := fun h => by
      have h2 := vnorm_image hQ hc w
      rw [h, vnorm_eq_zero.2 rfl] at h2
      rcases mul_eq_zero.1 h2.symm with h3 | h3
      · exact hc.ne' h3
      · exact hw (vnorm_eq_zero.1 h3)
    rw [normalized_ne h1, normalized_ne hw, vnorm_image hQ hc, map_smul, smul_smul, mul_inv]
    congr 1
    field_simp

theorem update_scale (h : ℕ → ℝ) (j : ℕ) (a : ℝ) :
    Function.update (fun i => c * h i) j (c * a) = fun i => c * Function.update h j a i := by
  funext i
  by_cases hi : i = j
  · subst hi; simp
  · simp [hi]

theorem mgs_image (hQ : Iso Q) (v : ℕ → Vec n ℝ) (k : ℕ) (h : ℕ → ℝ) (w : Vec n ℝ) :
    mgs (fun j => Q (v j)) k (fun i => c * h i) (c • Q w) = (fun i => c * (mgs v k h w).1 i, c • Q (mgs v k h w).2) := by
  unfold mgs
  induction k with
  | zero => rfl
  | succ k ih =>
    unfold forUp
    rw [ih]
    dsimp only
    rw [dot_real, dot_real, smul_dotProduct, hQ.dot, smul_eq_mul, update_scale, smulv_real, smulv_real, map_sub, map_smul, smul_sub,
      smul_smul]

theorem reorth_image (hQ : Iso Q) (v : ℕ → Vec n ℝ) (k : ℕ) (h : ℕ → ℝ) (w : Vec n ℝ) :
    reorth (fun j => Q (v j)) k (fun i => c * h i) (c • Q w) = (fun i => c * (reorth v k h w).1 i, c • Q (reorth v k h w).2) := by
  unfold reorth
  induction k with
  | zero => rfl
  | succ k ih =>
    unfold forUp
    rw [ih]
    dsimp only
    rw [dot_real, dot_real, smul_dotProduct, hQ.dot, smul_eq_mul, ← mul_add, update_scale, smulv_real, smulv_real, map_sub, map_smul,
      smul_sub, smul_smul]

theorem arnoldi_image (hQ : Iso Q) (hc : 0 < c) (reo : Bool) (v : ℕ → Vec n ℝ) (k : ℕ) (h : ℕ → ℝ) (w : Vec n ℝ) :
    arnoldi reo (fun j => Q (v j)) k (fun i => c * h i) (c • Q w) =
      (fun i => c * (arnoldi reo v k h w).1 i, c • Q (arnoldi reo v k h w).2) := by
  unfold arnoldi
  rw [mgs_image hQ]
  dsimp only
  rw [vnorm_image hQ hc, vnorm_image hQ hc, update_scale, reorth_image hQ]
  have e : eqb (c * vnorm w + lit (1 / 1000) * (c * vnorm (mgs v (k + 1) h w).2)) (c * vnorm w) =
      eqb (vnorm w + lit (1 / 1000) * vnorm (mgs v (k + 1) h w).2) (vnorm w) := by
    rw [Bool.eq_iff_iff, eqb_real, eqb_real, show c * vnorm w + lit (1 / 1000) * (c * vnorm (mgs v (k + 1) h w).2) =
      c * (vnorm w + lit (1 / 1000) * vnorm (mgs v (k + 1) h w).2) by ring]
    exact ⟨fun h => mul_left_cancel₀ hc.ne' h, fun h => by rw [h]⟩
  rw [e]
  split <;> rfl

theorem rot_scale (a b : ℝ) (i : ℕ) (z : ℕ → ℝ) : rot a b i (fun j => c * z j) = fun j => c * rot a b i z j := by
  unfold rot
  rw [show a * (c * z i) - b * (c * z (i + 1)) = c * (a * z i - b * z (i + 1)) by ring, update_scale,
    show b * (c * z i) + a * (c * z (i + 1)) = c * (b * z i + a * z (i + 1)) by ring, update_scale]

theorem rots_scale (a b : ℕ → ℝ) (k : ℕ) (z : ℕ → ℝ) : rots a b k (fun j => c * z j) = fun j => c * rots a b k z j := by
  unfold rots
  induction k with
  | zero => rfl
  | succ k ih => unfold forUp; rw [ih]; exact rot_scale _ _ _ _

theorem setCol_scale (H : ℕ → ℕ → ℝ) (j : ℕ) (h : ℕ → ℝ) :
    setCol (fun i l => c * H i l) j (fun i => c * h i) = fun i l => c * setCol H j h i l := by
  funext i l
  unfold setCol
  split <;> rfl

theorem triStep_image (hc : 0 < c) (st : State n ℝ) (h : ℕ → ℝ) :
    triStep (st.image Q c) (fun i => c * h i) = (triStep st h).image Q c := by
  have hn : ∀ a b : ℝ, Real.sqrt (c * a * (c * a) + c * b * (c * b)) = c * Real.sqrt (a * a + b * b) := fun a b => by
    rw [show c * a * (c * a) + c * b * (c * b) = c * c * (a * a + b * b) by ring, Real.sqrt_mul (by positivity),
      Real.sqrt_mul_self hc.le]
  unfold triStep State.image
  dsimp only
  rw [rots_scale]
  generalize rots st.c st.s st.k h = z
  simp only [sqrt_real, hn]
  rw [← mul_neg, mul_div_mul_left _ _ hc.ne', mul_div_mul_left _ _ hc.ne', rot_scale]
  generalize z st.k / Real.sqrt (z st.k * z st.k + z (st.k + 1) * z (st.k + 1)) = a
  generalize -z (st.k + 1) / Real.sqrt (z st.k * z st.k + z (st.k + 1) * z (st.k + 1)) = b
  rw [show a * (c * z st.k) - b * (c * z (st.k + 1)) = c * (a * z st.k - b * z (st.k + 1)) by ring, update_scale,
    show (0 : ℝ) = c * 0 by ring, update_scale, setCol_scale, abs_real, abs_real, abs_mul, abs_of_pos hc]
  simp

theorem lsqStep_image {L : Dense ℝ} (hL : L.Homogeneous c) (hc : 0 < c) (st : State n ℝ) (h : ℕ → ℝ) :
    lsqStep L (st.image Q c) (fun i => c * h i) = (lsqStep L st h).image Q c := by
  unfold lsqStep State.image
  dsimp only
  rw [setCol_scale]
  generalize setCol st.H st.k h = H
  have e1 : block (fun i l => c * H i l) (st.k + 1 + 1) (st.k + 1) = c • block H (st.k + 1 + 1) (st.k + 1) := rfl
  have e2 : vhead (fun i => c * st.g i) (st.k + 1 + 1) = c • vhead st.g (st.k + 1 + 1) := rfl
  rw [e1, e2, hL.qr]
  generalize L.qr (block H (st.k + 1 + 1) (st.k + 1)) (vhead st.g (st.k + 1 + 1)) = y
  have e3 : c • vhead st.g (st.k + 1 + 1) - FOps.mulVec (c • block H (st.k + 1 + 1) (st.k + 1)) y =
      c • (vhead st.g (st.k + 1 + 1) - FOps.mulVec (block H (st.k + 1 + 1) (st.k + 1)) y) := by
    rw [smul_sub, mulVec_real, mulVec_real, ← smul_mulVec]
  rw [e3, vnorm_scale hc]
  simp

theorem iter_image {L : Dense ℝ} (hL : L.Homogeneous c) (hQ : Iso Q) (hc : 0 < c) (cfg : Config ℝ) {A A' : Vec n ℝ → Vec n ℝ}
    (hA : ∀ v, A' (Q v) = c • Q (A v)) (st : State n ℝ) :
    iter L cfg A' (st.image Q c) = (iter L cfg A st).image Q c := by
  unfold iter
  have e1 : (st.image Q c).basis (st.image Q c).k = Q (st.basis st.k) := rfl
  rw [e1, hA]
  have e2 := arnoldi_image hQ hc cfg.applyReorth st.basis st.k (fun i => st.H i st.k) (A (st.basis st.k))
  have e3 : arnoldi cfg.applyReorth (st.image Q c).basis (st.image Q c).k (fun i => (st.image Q c).H i (st.image Q c).k)
      (c • Q (A (st.basis st.k))) = arnoldi cfg.applyReorth (fun j => Q (st.basis j)) st.k (fun i => c * st.H i st.k)
      (c • Q (A (st.basis st.k))) := rfl
  rw [e3, e2]
  generalize arnoldi cfg.applyReorth st.basis st.k (fun i => st.H i st.k) (A (st.basis st.k)) = q
  dsimp only
  rw [normalized_image hQ hc]
  have e4 : ({ st.image Q c with basis := Function.update (st.image Q c).basis ((st.image Q c).k + 1) (Q (normalized q.2)) } : State n ℝ) =
      State.image Q c { st with basis := Function.update st.basis (st.k + 1) (normalized q.2) } := by
    unfold State.image
    dsimp only
    congr 1
    funext j
    by_cases hj : j = st.k + 1
    · subst hj; simp
    · rw [Function.update_of_ne hj, Function.update_of_ne hj]
  rw [e4]
  split
  · exact triStep_image hc _ _
  · exact lsqStep_image hL hc _ _

theorem loop_image {L : Dense ℝ} (hL : L.Homogeneous c) (hQ : Iso Q) (hc : 0 < c) (cfg : Config ℝ) {A A' : Vec n ℝ → Vec n ℝ}
    (hA : ∀ v, A' (Q v) = c • Q (A v)) (β : ℝ) (r : ℕ) (st : State n ℝ) :
    loop L cfg A' (c * β) r (st.image Q c) = (loop L cfg A β r st).image Q c := by
  induction r generalizing st with
  | zero => rfl
  | succ r ih =>
    unfold loop
    have e : ltb (cfg.eps * (c * β)) (st.image Q c).rho = ltb (cfg.eps * β) st.rho := by
      rw [Bool.eq_iff_iff, ltb_real, ltb_real, show cfg.eps * (c * β) = c * (cfg.eps * β) by ring]
      exact mul_lt_mul_iff_right₀ hc
    rw [e, iter_image hL hQ hc cfg hA, ih]
    split <;> rfl

theorem init_image (hQ : Iso Q) (hc : 0 < c) {A A' : Vec n ℝ → Vec n ℝ} (hA : ∀ v, A' (Q v) = c • Q (A v)) (b x : Vec n ℝ) :
    init A' (c • Q b) (Q x) = (init A b x).image Q c := by
  unfold init State.image
  have e : c • Q b - A' (Q x) = c • Q (b - A x) := by rw [hA, map_sub, smul_sub]
  dsimp only
  rw [e, vnorm_image hQ hc, normalized_image hQ hc]
  simp

theorem update_image (Q : Vec n ℝ →ₗ[ℝ] Vec n ℝ) (st : State n ℝ) (y : ℕ → ℝ) (x : Vec n ℝ) :
    update (st.image Q c) y (Q x) = Q (update st y x) := by
  unfold update
  change forUp st.k (fun i x => x + smulv (y i) (Q (st.basis i))) (Q x) = _
  generalize st.k = k
  induction k with
  | zero => rfl
  | succ k ih => unfold forUp; rw [ih]; dsimp only; rw [smulv_real, smulv_real, map_add, map_smul]

theorem coef_image {L : Dense ℝ} (hL : L.Homogeneous c) (cfg : Config ℝ) (st : State n ℝ) : coef L cfg (st.image Q c) = coef L cfg st := by
  unfold coef
  have e : L.tri (block (st.image Q c).H (st.image Q c).k (st.image Q c).k) (vhead (st.image Q c).g (st.image Q c).k) =
      L.tri (block st.H st.k st.k) (vhead st.g st.k) := hL.tri (block st.H st.k st.k) (vhead st.g st.k)
  split
  · exact congrArg ofVec e
  · rfl

/-- **C128** GMRES for the equation `c Q A Q⁻¹ x' = c Q b` with an isometry `Q` and a positive number `c`, started at `Q x`, takes the same
number of iterations as for `A x = b` started at `x`; the solution and the basis are moved by `Q`, the recorded residuals are multiplied by
`c`.  The operator need not be linear. -/
theorem C128_gmres {L : Dense ℝ} (hL : L.Homogeneous c) (hQ : Iso Q) (hc : 0 < c) (cfg : Config ℝ) {A A' : Vec n ℝ → Vec n ℝ}
    (hA : ∀ v, A' (Q v) = c • Q (A v)) (b x : Vec n ℝ) :
    solve L cfg A' (c • Q b) (Q x) = (solve L cfg A b x).map (Out.image Q c) := by
  unfold solve
  split
  · rfl
  · rw [vnorm_image hQ hc, init_image hQ hc hA, loop_image hL hQ hc cfg hA]
    refine congrArg Res.ok ?_
    unfold finish Out.image
    rw [update_image, coef_image hL]
    simp [State.image]

end
end Nmpc.Gmres

namespace Nmpc.Cgmres

open Matrix Finset

variable {n n' m N : ℕ}

/-- The integrator commutes with affine maps of the state. -/
def Ode.Affine (ode : Ode ℝ) : Prop :=
  ∀ {n n' m m' : ℕ} (f : StateEq n m ℝ) (f' : StateEq n' m' ℝ) (T : Vec n ℝ →ₗ[ℝ] Vec n' ℝ) (a : Vec n' ℝ) (u : Vec m ℝ)
    (u' : Vec m' ℝ), (∀ t x, f' t (T x + a) u' = T (f t x u)) →
    ∀ t x dt, ode.solve f' t (T x + a) u' dt = T (ode.solve f t x u dt) + a

theorem euler_affine : Ode.Affine eulerOde := by
  intro n n' m m' f f' T a u u' h t x dt
  change euler f' t (T x + a) u' dt = T (euler f t x u dt) + a
  unfold euler
  rw [h, smulv_real, smulv_real, map_add, map_smul]
  abel

theorem rk_affine : Ode.Affine rkOde := by
  intro n n' m m' f f' T a u u' h t x dt
  change rk4 f' t (T x + a) u' dt = T (rk4 f t x u dt) + a
  have e : ∀ y z : Vec n ℝ, ∀ r : ℝ, T y + a + smulv r (T z) = T (y + smulv r z) + a := fun y z r => by
    rw [smulv_real, smulv_real, map_add, map_smul]
    abel
  unfold rk4
  dsimp only
  simp only [h, e]
  rw [← e]
  simp only [smulv_real, map_add, map_smul]

/-- The problem `P'` is `P` in other coordinates and units: states `T x + a`, inputs `Q u + d` with an isometry `Q`, costates `C λ`; the
gradient `∂H/∂u` is multiplied by `c`. -/
structure Change (P : Problem n m ℝ) (P' : Problem n' m ℝ) where
  T : Vec n ℝ →ₗ[ℝ] Vec n' ℝ
  a : Vec n' ℝ
  C : Vec n ℝ →ₗ[ℝ] Vec n' ℝ
  Q : Vec m ℝ →ₗ[ℝ] Vec m ℝ
  d : Vec m ℝ
  c : ℝ
  iso : Gmres.Iso Q
  pos : 0 < c
  state : ∀ t x u, P'.stateEq t (T x + a) (Q u + d) = T (P.stateEq t x u)
  costate : ∀ t l x u, P'.costateEq t (C l) (Fin.append (T x + a) (Q u + d)) = C (P.costateEq t l (Fin.append x u))
  dphidx : ∀ t x, P'.dphidx t (T x + a) = C (P.dphidx t x)
  dhdu : ∀ t x u l, P'.dhdu t (T x + a) (Q u + d) (C l) = c • Q (P.dhdu t x u l)

namespace Change

variable {P : Problem n m ℝ} {P' : Problem n' m ℝ} (g : Change P P')

/-- Inputs of all stages in the new coordinates. -/
def inputs (U : Fin N → Vec m ℝ) : Fin N → Vec m ℝ := fun i => g.Q (U i) + g.d

theorem colAt_inputs (U : Fin N → Vec m ℝ) {i : ℕ} (hi : i < N) : colAt (g.inputs U) i = g.Q (colAt U i) + g.d := by
  unfold colAt
  rw [dif_pos hi, dif_pos hi]
  rfl

theorem forwardAt_rel {ode : Ode ℝ} (ho : ode.Affine) (h t : ℝ) (x : Vec n ℝ) (U : Fin N → Vec m ℝ) {i : ℕ} (hi : i ≤ N) :
    forwardAt P' ode h t (g.T x + g.a) (g.inputs U) i = ((forwardAt P ode h t x U i).1, g.T (forwardAt P ode h t x U i).2 + g.a) := by
  induction i with
  | zero => rfl
  | succ i ih =>
    unfold forwardAt
    rw [ih (by omega)]
    dsimp only
    rw [g.colAt_inputs U (by omega), ho P.stateEq P'.stateEq g.T g.a (colAt U i) _ fun t x => g.state t x _]

/-- State of the backward loop for the other problem. -/
def back (q : Back n m ℝ) : Back n' m ℝ := { tau := q.tau, lmd := g.C q.lmd, D := fun i => g.c • g.Q (q.D i) }

theorem forDown_image {σ τ : Type} (f : σ → τ) {b : ℕ → σ → σ} {b' : ℕ → τ → τ} {k : ℕ} (h : ∀ i < k, ∀ s, b' i (f s) = f (b i s)) (s : σ) :
    forDown k b' (f s) = f (forDown k b s) := by
  induction k generalizing s with
  | zero => rfl
  | succ k ih =>
    unfold forDown
    rw [h k (by omega), ih fun i hi => h i (by omega)]

theorem dhduLoop_rel {ode : Ode ℝ} (ho : ode.Affine) (h t : ℝ) (x : Vec n ℝ) (U : Fin N → Vec m ℝ) :
    dhduLoop P' ode h t (g.T x + g.a) (g.inputs U) = g.back (dhduLoop P ode h t x U) := by
  unfold dhduLoop
  dsimp only
  rw [g.forwardAt_rel ho h t x U le_rfl]
  dsimp only
  rw [g.dphidx]
  have e : ({ tau := (forwardAt P ode h t x U N).1, lmd := g.C (P.dphidx (forwardAt P ode h t x U N).1 (forwardAt P ode h t x U N).2)
              D := fun _ _ => 0 } : Back n' m ℝ) =
      g.back { tau := (forwardAt P ode h t x U N).1, lmd := P.dphidx (forwardAt P ode h t x U N).1 (forwardAt P ode h t x U N).2
               D := fun _ _ => 0 } := by
    unfold back
    congr 1
    funext i
    change _ = g.c • g.Q 0
    rw [map_zero, smul_zero]
    rfl
  rw [e]
  refine forDown_image g.back (fun i hi q => ?_) _
  unfold backBody back
  dsimp only
  rw [g.forwardAt_rel ho h t x U hi.le, g.colAt_inputs U hi]
  dsimp only
  have e1 := ho P.costateEq P'.costateEq g.C 0 (Fin.append (forwardAt P ode h t x U i).2 (colAt U i))
    (Fin.append (g.T (forwardAt P ode h t x U i).2 + g.a) (g.Q (colAt U i) + g.d))
    (fun t l => by rw [add_zero, g.costate]) q.tau q.lmd (-h)
  rw [add_zero, add_zero] at e1
  rw [e1, g.dhdu]
  congr 1
  funext j
  by_cases hj : j = i
  · subst hj; simp
  · rw [Function.update_of_ne hj, Function.update_of_ne hj]

theorem dhduList_rel {ode : Ode ℝ} (ho : ode.Affine) (cfg : Config ℝ) (t : ℝ) (x : Vec n ℝ) (U : Fin N → Vec m ℝ) :
    dhduList P' ode cfg t (g.T x + g.a) (g.inputs U) = fun i => g.c • g.Q (dhduList P ode cfg t x U i) := by
  unfold dhduList
  rw [g.dhduLoop_rel ho]
  rfl

/-- The isometry on the vector of all stages. -/
def blocks (N : ℕ) : Vec (N * m) ℝ →ₗ[ℝ] Vec (N * m) ℝ where
  toFun v := flatten fun i => g.Q (segment v i)
  map_add' v w := by
    rw [← flatten_add]
    congr 1
    funext i
    rw [← map_add]
    rfl
  map_smul' r v := by
    rw [RingHom.id_apply, ← flatten_smul]
    congr 1
    funext i
    rw [← map_smul]
    rfl

theorem blocks_flatten (F : Fin N → Vec m ℝ) : g.blocks N (flatten F) = flatten fun i => g.Q (F i) := by
  change flatten (fun i => g.Q (segment (flatten F) i)) = _
  congr 1
  funext i
  rw [C53_segment_flatten]

theorem segment_blocks (v : Vec (N * m) ℝ) (i : Fin N) : segment (g.blocks N v) i = g.Q (segment v i) :=
  C53_segment_flatten (fun i => g.Q (segment v i)) i

theorem flatten_dot (U V : Fin N → Vec m ℝ) : flatten U ⬝ᵥ flatten V = ∑ i, U i ⬝ᵥ V i := by
  unfold dotProduct
  rw [← Fintype.sum_prod_type']
  exact Fintype.sum_equiv finProdFinEquiv.symm _ _ fun k => rfl

theorem blocks_iso (N : ℕ) : Gmres.Iso (g.blocks N) := ⟨fun v w => by
  conv_rhs => rw [← C53_flatten_segment v, ← C53_flatten_segment w]
  change flatten (fun i => g.Q (segment v i)) ⬝ᵥ flatten (fun i => g.Q (segment w i)) = _
  rw [flatten_dot, flatten_dot]
  exact Finset.sum_congr rfl fun i _ => g.iso.dot _ _⟩

theorem eqAmul_rel {ode : Ode ℝ} (ho : ode.Affine) (cfg : Config ℝ) (t : ℝ) (x : Vec n ℝ) (U Fd : Fin N → Vec m ℝ) (v : Vec (N * m) ℝ) :
    eqAmul P' ode cfg t (g.T x + g.a) (g.inputs U) (fun i => g.c • g.Q (Fd i)) (g.blocks N v) =
      g.c • g.blocks N (eqAmul P ode cfg t x U Fd v) := by
  have e : (fun i => g.inputs U i + smulv cfg.delta (segment (g.blocks N v) i)) =
      g.inputs fun i => U i + smulv cfg.delta (segment v i) := by
    funext i
    unfold inputs
    dsimp only
    rw [segment_blocks, smulv_real, smulv_real, map_add, map_smul]
    abel
  have e2 : ∀ F Fd : Fin N → Vec m ℝ, (fun k => (flatten F k - flatten Fd k) / cfg.delta) = cfg.delta⁻¹ • (flatten F - flatten Fd) :=
    fun F Fd => by
      funext k
      rw [Pi.smul_apply, Pi.sub_apply, smul_eq_mul, div_eq_inv_mul]
  unfold eqAmul
  dsimp only
  rw [e, g.dhduList_rel ho, e2, e2, map_smul, map_sub, blocks_flatten, blocks_flatten, flatten_smul, flatten_smul, ← smul_sub,
    smul_comm]

theorem eqB_rel (cfg : Config ℝ) (F Fd : Fin N → Vec m ℝ) :
    eqB cfg (fun i => g.c • g.Q (F i)) (fun i => g.c • g.Q (Fd i)) = g.c • g.blocks N (eqB cfg F Fd) := by
  have e2 : ∀ F Fd : Fin N → Vec m ℝ, eqB cfg F Fd = cfg.delta⁻¹ • ((1 - cfg.zeta * cfg.delta) • flatten F - flatten Fd) :=
    fun F Fd => by
      funext k
      rw [Pi.smul_apply, Pi.sub_apply, Pi.smul_apply, smul_eq_mul, smul_eq_mul]
      unfold eqB
      rw [div_eq_inv_mul]
  rw [e2, e2, map_smul, map_sub, map_smul, blocks_flatten, blocks_flatten, flatten_smul, flatten_smul]
  module

theorem xDelta_rel (cfg : Config ℝ) (x y : Vec n ℝ) : xDelta cfg (g.T x + g.a) (g.T y + g.a) = g.T (xDelta cfg x y) + g.a := by
  unfold xDelta
  rw [smulv_real, smulv_real, smulv_real, smulv_real, map_add, map_smul, map_smul]
  module

/-- The members of the solver for the other problem. -/
def mem (s : Mem m N ℝ) : Mem m N ℝ :=
  { uList := g.inputs s.uList, deltaU := g.blocks N s.deltaU, dhdu := fun i => g.c • g.Q (s.dhdu i) }

theorem linearSolve_rel {L : Gmres.Dense ℝ} (hL : L.Homogeneous g.c) {ode : Ode ℝ} (ho : ode.Affine) (cfg : Config ℝ) (t : ℝ)
    (x y : Vec n ℝ) (s : Mem m N ℝ) :
    linearSolve L P' ode cfg t (g.T x + g.a) (g.T y + g.a) (g.mem s) =
      (linearSolve L P ode cfg t x y s).map (Gmres.Out.image (g.blocks N) g.c) := by
  unfold linearSolve
  dsimp only
  have e1 : (g.mem s).uList = g.inputs s.uList := rfl
  have e2 : (g.mem s).deltaU = g.blocks N s.deltaU := rfl
  rw [e1, e2, g.xDelta_rel, g.dhduList_rel ho, g.dhduList_rel ho, g.eqB_rel]
  exact Gmres.C128_gmres hL (g.blocks_iso N) g.pos _ (fun v => g.eqAmul_rel ho cfg _ _ _ _ v) _ _

/-- **C128** One call of `calcControlInput` for the problem in other coordinates and units: the inputs and the members are those of the
original call in the new coordinates. -/
theorem C128_control {L : Gmres.Dense ℝ} (hL : L.Homogeneous g.c) {ode : Ode ℝ} (ho : ode.Affine) (cfg : Config ℝ) (t : ℝ)
    (x y : Vec n ℝ) (s : Mem m N ℝ) :
    calcControlInput L P' ode cfg t (g.T x + g.a) (g.T y + g.a) (g.mem s) =
      (calcControlInput L P ode cfg t x y s).map fun q => (g.mem q.1, g.Q q.2 + g.d) := by
  unfold calcControlInput
  rw [g.linearSolve_rel hL ho]
  cases linearSolve L P ode cfg t x y s with
  | ok r =>
    simp only [Res.map, Res.bind_ok]
    have e : (fun i => (g.mem s).uList i + smulv cfg.dt (segment (r.image (g.blocks N) g.c).x i)) =
        g.inputs fun i => s.uList i + smulv cfg.dt (segment r.x i) := by
      funext i
      change g.Q (s.uList i) + g.d + smulv cfg.dt (segment (g.blocks N r.x) i) = g.Q (s.uList i + smulv cfg.dt (segment r.x i)) + g.d
      rw [segment_blocks, smulv_real, smulv_real, map_add, map_smul]
      abel
    rw [e]
    split
    · simp only [Res.bind_ok]
      have e1 : (g.mem s).uList = g.inputs s.uList := rfl
      have e2 : ∀ h : 0 < N, (g.mem s).uList ⟨0, h⟩ + smulv cfg.dt (segment (r.image (g.blocks N) g.c).x ⟨0, h⟩) =
          g.Q (s.uList ⟨0, h⟩ + smulv cfg.dt (segment r.x ⟨0, h⟩)) + g.d := fun h => congrFun e ⟨0, h⟩
      rw [e2, e1, g.dhduList_rel ho]
      rfl
    · rfl
  | _ => rfl

/-- State of the loop of `setup` for the other problem. -/
def setupState (s : SetupState m ℝ) : SetupState m ℝ := { u := g.Q s.u + g.d, deltaU := g.Q s.deltaU, dhdu := g.Q s.dhdu }

theorem setupLoop_rel (h1 : g.c = 1) {L : Gmres.Dense ℝ} (cfg : Config ℝ) (hx : P'.x0 = g.T P.x0 + g.a) (lmd : Vec n ℝ) (r : ℕ)
    (s : SetupState m ℝ) :
    setupLoop L P' cfg (g.C lmd) r (g.setupState s) = (setupLoop L P cfg lmd r s).map g.setupState := by
  induction r generalizing s with
  | zero => rfl
  | succ r ih =>
    unfold setupLoop
    dsimp only
    have e0 : (g.setupState s).u = g.Q s.u + g.d := rfl
    have ed : ∀ u, P'.dhdu 0 P'.x0 (g.Q u + g.d) (g.C lmd) = g.Q (P.dhdu 0 P.x0 u lmd) := fun u => by
      rw [hx, g.dhdu, h1, one_smul]
    rw [e0, ed]
    have en : ∀ v, vnorm (g.Q v) = vnorm v := fun v => by
      have := Gmres.vnorm_image g.iso one_pos v
      rwa [one_smul, one_mul] at this
    rw [en]
    split
    · rfl
    · have ea : ∀ v, setupAmul P' cfg (g.C lmd) (g.Q s.u + g.d) (g.Q (P.dhdu 0 P.x0 s.u lmd)) (g.Q v) =
          (1 : ℝ) • g.Q (setupAmul P cfg lmd s.u (P.dhdu 0 P.x0 s.u lmd) v) := fun v => by
        have e3 : g.Q s.u + g.d + smulv cfg.delta (g.Q v) = g.Q (s.u + smulv cfg.delta v) + g.d := by
          rw [smulv_real, smulv_real, map_add, map_smul]
          abel
        have e4 : ∀ y z : Vec m ℝ, (fun k => (y k - z k) / cfg.delta) = cfg.delta⁻¹ • (y - z) := fun y z => by
          funext k
          rw [Pi.smul_apply, Pi.sub_apply, smul_eq_mul, div_eq_inv_mul]
        unfold setupAmul
        rw [e3, ed, e4, e4, map_smul, map_sub, one_smul]
      have eb : (fun k => -g.Q (P.dhdu 0 P.x0 s.u lmd) k) = (1 : ℝ) • g.Q (fun k => -P.dhdu 0 P.x0 s.u lmd k) := by
        change -g.Q (P.dhdu 0 P.x0 s.u lmd) = (1 : ℝ) • g.Q (-P.dhdu 0 P.x0 s.u lmd)
        rw [map_neg, one_smul]
      have hs : (g.setupState s).deltaU = g.Q s.deltaU := rfl
      rw [eb, hs, Gmres.C128_gmres L.homogeneous_one g.iso one_pos _ ea]
      cases Gmres.solve L (gmresConfig (m : ℤ)) (setupAmul P cfg lmd s.u (P.dhdu 0 P.x0 s.u lmd)) (fun k => -P.dhdu 0 P.x0 s.u lmd k)
        s.deltaU with
      | ok q =>
        simp only [Res.map, Res.bind_ok]
        have e5 : ({ u := g.Q s.u + g.d + (Gmres.Out.image g.Q 1 q).x, deltaU := (Gmres.Out.image g.Q 1 q).x
                     dhdu := g.Q (P.dhdu 0 P.x0 s.u lmd) } : SetupState m ℝ) =
            g.setupState { u := s.u + q.x, deltaU := q.x, dhdu := P.dhdu 0 P.x0 s.u lmd } := by
          unfold setupState Gmres.Out.image
          dsimp only
          rw [map_add]
          congr 1
          abel
        rw [e5, ih]
        rfl
      | _ => rfl

theorem setup_rel (h1 : g.c = 1) {L : Gmres.Dense ℝ} (cfg : Config ℝ) (hx : P'.x0 = g.T P.x0 + g.a) (hu : P'.u0 = g.Q P.u0 + g.d) (N : ℕ) :
    setup L P' cfg N = (setup L P cfg N).map fun q => (g.mem q.1, g.Q q.2 + g.d) := by
  unfold setup
  rw [show P'.dphidx 0 P'.x0 = g.C (P.dphidx 0 P.x0) by rw [hx, g.dphidx]]
  have e : ({ u := P'.u0, deltaU := fun _ => 0, dhdu := fun _ => 0 } : SetupState m ℝ) =
      g.setupState { u := P.u0, deltaU := fun _ => 0, dhdu := fun _ => 0 } := by
    have e0 : g.Q (fun _ => 0) = fun _ => 0 := map_zero g.Q
    unfold setupState
    rw [hu, e0]
  rw [e, g.setupLoop_rel h1 cfg hx]
  cases setupLoop L P cfg (P.dphidx 0 P.x0) 100 { u := P.u0, deltaU := fun _ => 0, dhdu := fun _ => 0 } with
  | ok s =>
    simp only [Res.map, Res.bind_ok]
    have e2 : g.blocks N (fun _ => 0) = fun _ => 0 := map_zero (g.blocks N)
    unfold mem
    dsimp only
    rw [e2, h1]
    simp only [one_smul]
    rfl
  | _ => rfl

/-- A line of the dump files for the other problem. -/
def dump (q : Dump n m ℝ) : Dump n' m ℝ := { t := q.t, x := g.T q.x + g.a, u := g.Q q.u + g.d, err := g.c * q.err }

/-- State of the simulation loop for the other problem. -/
def sim (s : Sim n m N ℝ) : Sim n' m N ℝ :=
  { t := s.t, i := s.i, x := g.T s.x + g.a, u := g.Q s.u + g.d, mem := g.mem s.mem, dump := s.dump.map g.dump }

theorem simStep_rel {L : Gmres.Dense ℝ} (hL : L.Homogeneous g.c) {ode simOde : Ode ℝ} (ho : ode.Affine) (hs : simOde.Affine)
    (cfg : Config ℝ) (s : Sim n m N ℝ) :
    simStep L P' ode simOde cfg (g.sim s) = (simStep L P ode simOde cfg s).map g.sim (Res.map g.sim) := by
  unfold simStep
  have e1 : (g.sim s).t = s.t := rfl
  have e2 : (g.sim s).x = g.T s.x + g.a := rfl
  have e3 : (g.sim s).u = g.Q s.u + g.d := rfl
  have e4 : (g.sim s).mem = g.mem s.mem := rfl
  have e5 : (g.sim s).i = s.i := rfl
  have e6 : (g.sim s).dump = s.dump.map g.dump := rfl
  rw [e1, e2, e3, e4, e5, e6]
  split
  · dsimp only
    rw [hs P.stateEq P'.stateEq g.T g.a s.u (g.Q s.u + g.d) fun t x => g.state t x _, g.C128_control hL ho]
    cases calcControlInput L P ode cfg s.t s.x (simOde.solve P.stateEq s.t s.x s.u cfg.dt) s.mem with
    | ok q =>
      simp only [Res.map, Res.bind_ok]
      split
      · rfl
      · refine congrArg Sum.inl ?_
        unfold sim
        dsimp only
        have e7 : vnorm (flatten (g.mem q.1).dhdu) = g.c * vnorm (flatten q.1.dhdu) := by
          have e8 : flatten (g.mem q.1).dhdu = g.c • g.blocks N (flatten q.1.dhdu) := by
            rw [blocks_flatten, ← flatten_smul]
            rfl
          rw [e8, Gmres.vnorm_image (g.blocks_iso N) g.pos]
        rw [e7]
        split
        · rw [List.map_append]; rfl
        · rfl
    | _ => rfl
  · rfl

theorem loopR_image {σ τ : Type} {step : σ → σ ⊕ Res σ} {step' : τ → τ ⊕ Res τ} (f : σ → τ)
    (h : ∀ s, step' (f s) = (step s).map f (Res.map f)) (s : σ) : loopR step' (f s) = (loopR step s).map f := by
  unfold loopR
  rcases loopM_rel (fun s t => t = f s) (fun (r : Res σ) (p : Res τ) => p = r.map f) (f := step) (g := step') (s := s) (t := f s)
    (fun s t hst => by
      subst hst
      rw [h s]
      cases hs : step s with
      | inl s' => exact .inl ⟨s', f s', rfl, rfl, rfl⟩
      | inr r => exact .inr ⟨r, r.map f, rfl, rfl, rfl⟩) rfl with ⟨h1, h2⟩ | ⟨r, p, h1, h2, h3⟩
  · rw [h1, h2]; rfl
  · rw [h1, h2, h3]

/-- **C128** The simulation loop of `run`, from any state: times, number of rounds and outcome are the same, states, inputs and dumped
lines are those of the original simulation in the new coordinates. -/
theorem C128_loop {L : Gmres.Dense ℝ} (hL : L.Homogeneous g.c) {ode simOde : Ode ℝ} (ho : ode.Affine) (hs : simOde.Affine)
    (cfg : Config ℝ) (s : Sim n m N ℝ) :
    loopR (simStep L P' ode simOde cfg) (g.sim s) = (loopR (simStep L P ode simOde cfg) s).map g.sim :=
  loopR_image g.sim (g.simStep_rel hL ho hs cfg) s

/-- **C128** `run` for the problem in other coordinates, when `∂H/∂u` is only moved by the isometry (`c = 1`). -/
theorem C128_run (h1 : g.c = 1) {L : Gmres.Dense ℝ} {ode simOde : Ode ℝ} (ho : ode.Affine) (hs : simOde.Affine) (cfg : Config ℝ)
    (hx : P'.x0 = g.T P.x0 + g.a) (hu : P'.u0 = g.Q P.u0 + g.d) :
    run L P' ode simOde cfg = (run L P ode simOde cfg).map g.sim := by
  unfold run
  split
  · rfl
  · unfold runN
    rw [g.setup_rel h1 cfg hx hu]
    cases setup L P cfg cfg.divideNum.toNat with
    | ok q =>
      simp only [Res.map, Res.bind_ok]
      have e : ({ t := 0, i := 0, x := P'.x0, u := g.Q q.2 + g.d, mem := g.mem q.1, dump := [] } : Sim n' m _ ℝ) =
          g.sim { t := 0, i := 0, x := P.x0, u := q.2, mem := q.1, dump := [] } := by
        unfold sim
        rw [hx]
        rfl
      rw [e]
      exact g.C128_loop (h1 ▸ L.homogeneous_one) ho hs cfg _
    | _ => rfl

end Change
end Nmpc.Cgmres
