import Verif.CGMRES.Invariance
import Verif.CGMRES.GmresExamples
import Verif.CGMRES.Setup
import Verif.Problems.Cgmres

/-!
# C/GMRES in other coordinates: changes of the state and input coordinates, of the unit of the cost, and the symmetries of the examples (C128)
-/

namespace Nmpc.Problems

open Matrix Finset Cgmres

variable {n m : ℕ}

/-! ## Change of coordinates -/

/-- The problem in the coordinates `z = T x + a` and `v = R u + d`, with the inverse matrix `S` of `T`, an orthogonal matrix `R` and the
costate `Sᵀ λ`. -/
noncomputable def inCoord (P : Problem n m ℝ) (T S : Mat n n ℝ) (a : Vec n ℝ) (R : Mat m m ℝ) (d : Vec m ℝ) : Problem n m ℝ where
  stateEq t z v := T *ᵥ P.stateEq t (S *ᵥ (z - a)) (Rᵀ *ᵥ (v - d))
  costateEq t l zv := Sᵀ *ᵥ P.costateEq t (Tᵀ *ᵥ l)
    (Fin.append (S *ᵥ (headV n (by omega) zv - a)) (Rᵀ *ᵥ (tailV m (by omega) zv - d)))
  dphidx t z := Sᵀ *ᵥ P.dphidx t (S *ᵥ (z - a))
  dhdu t z v l := R *ᵥ P.dhdu t (S *ᵥ (z - a)) (Rᵀ *ᵥ (v - d)) (Tᵀ *ᵥ l)
  x0 := T *ᵥ P.x0 + a
  u0 := R *ᵥ P.u0 + d

theorem headV_append (x : Vec n ℝ) (u : Vec m ℝ) : headV n (by omega) (Fin.append x u) = x := by
  funext i
  exact Fin.append_left x u i

theorem tailV_append (x : Vec n ℝ) (u : Vec m ℝ) : tailV m (by omega) (Fin.append x u) = u := by
  funext i
  unfold tailV
  rw [← Fin.append_right x u i]
  congr 1
  exact Fin.ext (by simp)

theorem isGrad_comp {f : Vec n ℝ → ℝ} (S : Mat n n ℝ) (a z : Vec n ℝ) {g : Vec n ℝ} (h : IsGrad f (S *ᵥ (z - a)) g) :
    IsGrad (fun y => f (S *ᵥ (y - a))) z (Sᵀ *ᵥ g) := by
  obtain ⟨D, hD, hg⟩ := h
  have h1 : HasFDerivAt (fun y : Vec n ℝ => S *ᵥ (y - a)) (Matrix.mulVecLin S).toContinuousLinearMap z := by
    have h2 := ((Matrix.mulVecLin S).toContinuousLinearMap.hasFDerivAt (x := z - a)).comp z ((hasFDerivAt_id z).sub_const a)
    exact h2
  refine ⟨_, hD.comp z h1, fun v => ?_⟩
  change D (S *ᵥ v) = _
  rw [hg, dotProduct_mulVec, ← mulVec_transpose]

/-- The transformed callbacks belong to the same optimal control problem: if the callbacks of `P` are the derivatives of the Hamiltonian
`H` and of the terminal cost `φ`, the new ones are the derivatives of the Hamiltonian and terminal cost in the new coordinates. -/
theorem inCoord_derivs {P : Problem n m ℝ} {H : Vec n ℝ → Vec m ℝ → Vec n ℝ → ℝ} {φ : Vec n ℝ → ℝ} {T S : Mat n n ℝ} {R : Mat m m ℝ}
    (a : Vec n ℝ) (d : Vec m ℝ) {t : ℝ} {z : Vec n ℝ} {v : Vec m ℝ} {l : Vec n ℝ}
    (h : CgDerivs P H φ t (S *ᵥ (z - a)) (Rᵀ *ᵥ (v - d)) (Tᵀ *ᵥ l)) :
    CgDerivs (inCoord P T S a R d) (fun z v l => H (S *ᵥ (z - a)) (Rᵀ *ᵥ (v - d)) (Tᵀ *ᵥ l)) (fun z => φ (S *ᵥ (z - a))) t z v l where
  costate := by
    have := isGrad_comp S a z h.costate
    rw [mulVec_neg] at this
    simp only [inCoord, headV_append, tailV_append]
    exact this
  dhdu := by
    have := isGrad_comp Rᵀ d v h.dhdu
    rw [transpose_transpose] at this
    exact this
  dphidx := isGrad_comp S a z h.dphidx

/-- The change of coordinates. -/
noncomputable def coordChange (P : Problem n m ℝ) {T S : Mat n n ℝ} (hS : S * T = 1) (a : Vec n ℝ) {R : Mat m m ℝ} (hR : Rᵀ * R = 1)
    (d : Vec m ℝ) : Change P (inCoord P T S a R d) :=
  have hx : ∀ x, S *ᵥ (T *ᵥ x + a - a) = x := fun x => by rw [add_sub_cancel_right, mulVec_mulVec, hS, one_mulVec]
  have hu : ∀ u, Rᵀ *ᵥ (R *ᵥ u + d - d) = u := fun u => by rw [add_sub_cancel_right, mulVec_mulVec, hR, one_mulVec]
  have hl : ∀ l, Tᵀ *ᵥ (Sᵀ *ᵥ l) = l := fun l => by rw [mulVec_mulVec, ← transpose_mul, hS, transpose_one, one_mulVec]
  { T := mulVecLin T, a := a, C := mulVecLin Sᵀ, Q := mulVecLin R, d := d, c := 1
    iso := ⟨fun v w => by
      rw [mulVecLin_apply, mulVecLin_apply, dotProduct_mulVec, ← mulVec_transpose, mulVec_mulVec, hR, one_mulVec]⟩
    pos := one_pos
    state := fun t x u => by simp only [inCoord, mulVecLin_apply, hx, hu]
    costate := fun t l x u => by simp only [inCoord, mulVecLin_apply, headV_append, tailV_append, hx, hu, hl]
    dphidx := fun t x => by simp only [inCoord, mulVecLin_apply, hx]
    dhdu := fun t x u l => by simp only [inCoord, mulVecLin_apply, hx, hu, hl, one_smul] }

/-- **C128** The choice of the coordinates of the state (any invertible affine change) and of the inputs (any orthogonal change and shift)
does not matter: `run` simulates the same states and applies the same inputs, expressed in the new coordinates, and records the same norms
of `∂H/∂u`. -/
theorem C128_coordinates (P : Problem n m ℝ) {T S : Mat n n ℝ} (hS : S * T = 1) (a : Vec n ℝ) {R : Mat m m ℝ} (hR : Rᵀ * R = 1)
    (d : Vec m ℝ) {L : Gmres.Dense ℝ} {ode simOde : Ode ℝ} (ho : ode.Affine) (hs : simOde.Affine) (cfg : Config ℝ) :
    run L (inCoord P T S a R d) ode simOde cfg = (run L P ode simOde cfg).map (coordChange P hS a hR d).sim :=
  (coordChange P hS a hR d).C128_run rfl ho hs cfg rfl rfl

/-! ## Unit of the cost -/

/-- The problem with the cost multiplied by `c`. -/
noncomputable def scaleCost (P : Problem n m ℝ) (c : ℝ) : Problem n m ℝ where
  stateEq := P.stateEq
  costateEq t l xu := c • P.costateEq t (c⁻¹ • l) xu
  dphidx t x := c • P.dphidx t x
  dhdu t x u l := c • P.dhdu t x u (c⁻¹ • l)
  x0 := P.x0
  u0 := P.u0

theorem isGrad_scale {f : Vec n ℝ → ℝ} {x g : Vec n ℝ} (c : ℝ) (h : IsGrad f x g) : IsGrad (fun y => c * f y) x (c • g) := by
  obtain ⟨D, hD, hg⟩ := h
  refine ⟨c • D, hD.const_mul c, fun v => ?_⟩
  rw [_root_.smul_apply, hg, smul_dotProduct]

theorem scaleCost_derivs {P : Problem n m ℝ} {H : Vec n ℝ → Vec m ℝ → Vec n ℝ → ℝ} {φ : Vec n ℝ → ℝ} (c : ℝ)
    {t : ℝ} {x : Vec n ℝ} {u : Vec m ℝ} {l : Vec n ℝ} (h : CgDerivs P H φ t x u (c⁻¹ • l)) :
    CgDerivs (scaleCost P c) (fun x u l => c * H x u (c⁻¹ • l)) (fun x => c * φ x) t x u l where
  costate := by
    have := isGrad_scale c h.costate
    rw [smul_neg] at this
    exact this
  dhdu := isGrad_scale c h.dhdu
  dphidx := isGrad_scale c h.dphidx

/-- The change of the unit of the cost. -/
noncomputable def costChange (P : Problem n m ℝ) {c : ℝ} (hc : 0 < c) : Change P (scaleCost P c) where
  T := LinearMap.id
  a := 0
  C := c • LinearMap.id
  Q := LinearMap.id
  d := 0
  c := c
  iso := ⟨fun _ _ => rfl⟩
  pos := hc
  state t x u := by simp [scaleCost]
  costate t l x u := by simp [scaleCost, hc.ne']
  dphidx t x := by simp [scaleCost]
  dhdu t x u l := by simp [scaleCost, hc.ne']

/-- **C128** The unit of the cost does not matter for the control loop: with the cost multiplied by `c > 0` every call of
`calcControlInput` makes the same change of the inputs. -/
theorem C128_cost {N : ℕ} (P : Problem n m ℝ) {c : ℝ} (hc : 0 < c) {L : Gmres.Dense ℝ} (hL : L.Homogeneous c) {ode : Ode ℝ}
    (ho : ode.Affine) (cfg : Config ℝ) (t : ℝ) (x y : Vec n ℝ) (s : Mem m N ℝ) :
    calcControlInput L (scaleCost P c) ode cfg t x y { s with dhdu := c • s.dhdu } =
      (calcControlInput L P ode cfg t x y s).map fun q => ({ q.1 with dhdu := c • q.1.dhdu }, q.2) := by
  have hm : ∀ s : Mem m N ℝ, (costChange P hc).mem s = { s with dhdu := c • s.dhdu } := fun s => by
    unfold Change.mem
    congr 1
    · funext i
      exact add_zero _
    · exact C53_flatten_segment s.deltaU
  have h := (costChange P hc).C128_control hL ho cfg t x y s
  have e : ∀ x : Vec n ℝ, (costChange P hc).T x + (costChange P hc).a = x := fun x => add_zero _
  have e2 : ∀ u : Vec m ℝ, (costChange P hc).Q u + (costChange P hc).d = u := fun u => add_zero _
  simp only [hm, e, e2] at h
  exact h

/-- One input with `H = u² / 2`. -/
noncomputable def unitWitness : Problem 1 1 ℝ where
  stateEq _ _ _ := 0
  costateEq _ _ _ := 0
  dphidx _ _ := 0
  dhdu _ _ u _ := u
  x0 := 0
  u0 := fun _ => 1 / 10 ^ 6

/-- **C128** `setup` does depend on the unit of the cost, because of its absolute tolerance: here the initial input is accepted, and with
the same cost in a unit ten times smaller another one is returned. -/
theorem C128_setup_unit {L : Gmres.Dense ℝ} (hL : L.Exact) {cfg : Config ℝ} (hd : cfg.delta ≠ 0) (N : ℕ) :
    ∃ s u s' u', setup L unitWitness cfg N = .ok (s, u) ∧ setup L (scaleCost unitWitness 10) cfg N = .ok (s', u') ∧
      u = unitWitness.u0 ∧ u' ≠ u := by
  have hn : ∀ r : ℝ, vnorm (fun _ : Fin 1 => r) = |r| := fun r => by
    rw [Gmres.vnorm_real, ← Real.sqrt_mul_self_eq_abs]
    simp [dotProduct]
  obtain ⟨s', u', h1, h2, -⟩ := C62_setup_converges (ode := eulerOde) L (scaleCost unitWitness 10) cfg hL hd euler_zeroStep
    ((10 : ℝ) • (1 : Mat 1 1 ℝ)) 0 (by rw [det_smul, det_one]; exact isUnit_iff_ne_zero.2 (by norm_num))
    (fun u => by
      rw [add_zero, smul_mulVec, one_mulVec]
      rfl) (by
        rw [← Gmres.vnorm_norm2]
        change vnorm (fun _ : Fin 1 => (10 : ℝ) * (1 / 10 ^ 6)) ≤ _
        rw [hn, abs_of_pos (by norm_num)]
        exact (by norm_num : (10 : ℝ) * (1 / 10 ^ 6) ≤ 1).trans (one_le_pow₀ (by norm_num))) N
  have h0 : leb (vnorm (unitWitness.dhdu 0 unitWitness.x0 unitWitness.u0 (unitWitness.dphidx 0 unitWitness.x0))) (lit (1 / 10 ^ 6)) = true := by
    rw [leb_real]
    change vnorm (fun _ : Fin 1 => (1 : ℝ) / 10 ^ 6) ≤ _
    rw [hn, abs_of_pos (by norm_num)]
    norm_num
  refine ⟨{ uList := fun _ => unitWitness.u0, deltaU := fun _ => 0, dhdu := fun _ => unitWitness.u0 }, unitWitness.u0, s', u', ?_, h1, rfl, ?_⟩
  · unfold setup setupLoop
    rw [if_pos h0]
    rfl
  · rintro rfl
    rw [← Gmres.vnorm_norm2] at h2
    change vnorm (fun _ : Fin 1 => (10 : ℝ) * (1 / 10 ^ 6)) ≤ _ at h2
    rw [hn, abs_of_pos (by norm_num)] at h2
    norm_num at h2

/-! ## Cart-pole -/

/-- The reference moved like the state. -/
noncomputable def CgCartPole.moved (p : CgCartPole ℝ) (σ : ℝ) (a : Vec 4 ℝ) : CgCartPole ℝ := { p with ref := fun t => σ • p.ref t + a }

/-- Displacement of the cart by `s` and `k` full turns of the pole. -/
noncomputable def turned (s : ℝ) (k : ℤ) : Vec 4 ℝ := ![s, k * (2 * Real.pi), 0, 0]

theorem cart_moved (p : CgCartPole ℝ) {σ : ℝ} (hσ : σ = 1 ∨ σ = -1) (s : ℝ) (k : ℤ) (t : ℝ) (x lmd : Vec 4 ℝ) (f : ℝ) :
    (p.moved σ (turned s k)).stateEq (σ • x + turned s k) (σ * f) = σ • p.stateEq x f ∧
    (p.moved σ (turned s k)).costateEq t (σ • lmd) (σ • x + turned s k) (σ * f) = σ • p.costateEq t lmd x f ∧
    (p.moved σ (turned s k)).dhdf (σ • x + turned s k) (σ * f) (σ • lmd) = σ * p.dhdf x f lmd := by
  have hs : Real.sin (σ * x 1 + k * (2 * Real.pi)) = σ * Real.sin (x 1) := by
    rw [Real.sin_add_int_mul_two_pi]
    rcases hσ with rfl | rfl
    · rw [one_mul, one_mul]
    · rw [neg_one_mul, neg_one_mul, Real.sin_neg]
  have hc : Real.cos (σ * x 1 + k * (2 * Real.pi)) = Real.cos (x 1) := by
    rw [Real.cos_add_int_mul_two_pi]
    rcases hσ with rfl | rfl
    · rw [one_mul]
    · rw [neg_one_mul, Real.cos_neg]
  have h0 : (σ • x + turned s k) 0 = σ * x 0 + s := rfl
  have h1 : (σ • x + turned s k) 1 = σ * x 1 + k * (2 * Real.pi) := rfl
  have h2 : (σ • x + turned s k) 2 = σ * x 2 := add_zero _
  have h3 : (σ • x + turned s k) 3 = σ * x 3 := add_zero _
  have r0 : (p.moved σ (turned s k)).ref t 0 = σ * p.ref t 0 + s := rfl
  have r1 : (p.moved σ (turned s k)).ref t 1 = σ * p.ref t 1 + k * (2 * Real.pi) := rfl
  have r2 : (p.moved σ (turned s k)).ref t 2 = σ * p.ref t 2 := add_zero _
  have r3 : (p.moved σ (turned s k)).ref t 3 = σ * p.ref t 3 := add_zero _
  refine ⟨?_, ?_, ?_⟩
  · simp only [CgCartPole.stateEq, h1, h2, h3, sin_real, cos_real, hs, hc]
    rcases hσ with rfl | rfl <;> (funext i; fin_cases i <;> simp [CgCartPole.moved] <;> ring)
  · simp only [CgCartPole.costateEq, h0, h1, h2, h3, r0, r1, r2, r3, sin_real, cos_real, hs, hc, Pi.smul_apply, smul_eq_mul]
    rcases hσ with rfl | rfl <;> (funext i; fin_cases i <;> simp [CgCartPole.moved] <;> ring)
  · simp only [CgCartPole.dhdf, h1, sin_real, cos_real, hs, hc, Pi.smul_apply, smul_eq_mul]
    rcases hσ with rfl | rfl <;> (simp [CgCartPole.moved] <;> ring)

/-- A problem started elsewhere. -/
def startAt (P : Problem n m ℝ) (x0 : Vec n ℝ) (u0 : Vec m ℝ) : Problem n m ℝ := { P with x0 := x0, u0 := u0 }

/-- The cart-pole without input bound, mirrored (`σ = -1`), displaced by `s` and turned by `2 π k`. -/
noncomputable def cartChange (p : CgCartPole ℝ) {σ : ℝ} (hσ : σ = 1 ∨ σ = -1) (s : ℝ) (k : ℤ) (x0 : Vec 4 ℝ) (u0 : Vec 1 ℝ) :
    Change (startAt p.problem x0 u0) (startAt (p.moved σ (turned s k)).problem (σ • x0 + turned s k) (σ • u0)) where
  T := σ • LinearMap.id
  a := turned s k
  C := σ • LinearMap.id
  Q := σ • LinearMap.id
  d := 0
  c := 1
  iso := ⟨fun v w => by
    rcases hσ with rfl | rfl <;> simp⟩
  pos := one_pos
  state t x u := by
    rw [add_zero]
    exact (cart_moved p hσ s k t x 0 (u 0)).1
  costate t l x u := by
    rw [add_zero]
    exact (cart_moved p hσ s k t x l (u 0)).2.1
  dphidx t x := by
    funext i
    change p.sf i * (σ * x i + turned s k i - (σ * p.ref t i + turned s k i)) = σ * (p.sf i * (x i - p.ref t i))
    ring
  dhdu t x u l := by
    rw [add_zero, one_smul]
    funext i
    fin_cases i
    exact (cart_moved p hσ s k t x l (u 0)).2.2

/-- Reflection of the force only: the slack and the multiplier of the input bound are kept. -/
noncomputable def forceSign (σ : ℝ) : Vec 3 ℝ →ₗ[ℝ] Vec 3 ℝ := mulVecLin (diagonal ![σ, 1, 1])

theorem forceSign_apply (σ : ℝ) (u : Vec 3 ℝ) : forceSign σ u = ![σ * u 0, u 1, u 2] := by
  funext i
  rw [forceSign, mulVecLin_apply, mulVec_diagonal]
  fin_cases i <;> simp

/-- The cart-pole with input bound, mirrored (`σ = -1`), displaced by `s` and turned by `2 π k`. -/
noncomputable def boundedChange (p : CgCartPole ℝ) {σ : ℝ} (hσ : σ = 1 ∨ σ = -1) (s : ℝ) (k : ℤ) (x0 : Vec 4 ℝ) (u0 : Vec 3 ℝ) :
    Change (startAt p.bounded x0 u0) (startAt (p.moved σ (turned s k)).bounded (σ • x0 + turned s k) (forceSign σ u0)) where
  T := σ • LinearMap.id
  a := turned s k
  C := σ • LinearMap.id
  Q := forceSign σ
  d := 0
  c := 1
  iso := ⟨fun v w => by
    rw [forceSign_apply, forceSign_apply]
    rcases hσ with rfl | rfl <;> simp [dotProduct, Fin.sum_univ_three]⟩
  pos := one_pos
  state t x u := by
    rw [add_zero, forceSign_apply σ u]
    exact (cart_moved p hσ s k t x 0 (u 0)).1
  costate t l x u := by
    rw [add_zero, forceSign_apply σ u]
    exact (cart_moved p hσ s k t x l (u 0)).2.1
  dphidx t x := by
    funext i
    change p.sf i * (σ * x i + turned s k i - (σ * p.ref t i + turned s k i)) = σ * (p.sf i * (x i - p.ref t i))
    ring
  dhdu t x u l := by
    rw [add_zero, one_smul, forceSign_apply σ u, forceSign_apply σ ((startAt p.bounded x0 u0).dhdu t x u l)]
    have h := (cart_moved p hσ s k t x l (u 0)).2.2
    funext i
    fin_cases i
    · change (p.moved σ (turned s k)).dhdf (σ • x + turned s k) (σ * u 0) (σ • l) + lit 2 * u 2 * (σ * u 0) =
        σ * (p.dhdf x (u 0) l + lit 2 * u 2 * u 0)
      rw [h]
      ring
    · rfl
    · change σ * u 0 * (σ * u 0) + u 1 * u 1 - p.fMax * p.fMax = u 0 * u 0 + u 1 * u 1 - p.fMax * p.fMax
      rcases hσ with rfl | rfl <;> ring

/-- **C128** The C/GMRES cart-pole examples have the symmetries of the plant: for the mirrored problem, for one displaced along the rail
and for one with the angle counted from another full turn (all three with the reference moved in the same way), `run` produces the
mirrored, displaced, turned simulation. -/
theorem C128_cartpole (p : CgCartPole ℝ) {σ : ℝ} (hσ : σ = 1 ∨ σ = -1) (s : ℝ) (k : ℤ) {L : Gmres.Dense ℝ} {ode simOde : Ode ℝ}
    (ho : ode.Affine) (hs : simOde.Affine) (cfg : Config ℝ) (x0 : Vec 4 ℝ) (u0 : Vec 1 ℝ) (v0 : Vec 3 ℝ) :
    run L (startAt (p.moved σ (turned s k)).problem (σ • x0 + turned s k) (σ • u0)) ode simOde cfg =
      (run L (startAt p.problem x0 u0) ode simOde cfg).map (cartChange p hσ s k x0 u0).sim ∧
    run L (startAt (p.moved σ (turned s k)).bounded (σ • x0 + turned s k) (forceSign σ v0)) ode simOde cfg =
      (run L (startAt p.bounded x0 v0) ode simOde cfg).map (boundedChange p hσ s k x0 v0).sim :=
  ⟨(cartChange p hσ s k x0 u0).C128_run rfl ho hs cfg rfl (add_zero _).symm,
    (boundedChange p hσ s k x0 v0).C128_run rfl ho hs cfg rfl (add_zero _).symm⟩

/-- What the change of coordinates does to the simulation of the cart-pole: times and residual norms are kept, states are mirrored and
moved, forces are mirrored. -/
theorem cartChange_dump (p : CgCartPole ℝ) {σ : ℝ} (hσ : σ = 1 ∨ σ = -1) (s : ℝ) (k : ℤ) (x0 : Vec 4 ℝ) (u0 : Vec 1 ℝ)
    (q : Dump 4 1 ℝ) :
    (cartChange p hσ s k x0 u0).dump q = { t := q.t, x := σ • q.x + turned s k, u := σ • q.u, err := q.err } := by
  unfold Change.dump cartChange
  simp

theorem self_mirror {β : Type} (f : β → β) (l : List β) (h : l.map f = l) : ∀ e ∈ l, f e = e := by
  intro e he
  induction l with
  | nil => cases he
  | cons a l ih =>
    rw [List.map_cons, List.cons.injEq] at h
    rcases List.mem_cons.1 he with rfl | he
    · exact h.1
    · exact ih h.2 he

/-- **C128** The pole standing upright over its target stays there: without disturbance every line written by the example without input
bound has state zero and input zero. -/
theorem C128_cartpole_rest (p : CgCartPole ℝ) (hr : p.ref = fun _ => 0) {L : Gmres.Dense ℝ} {ode simOde : Ode ℝ} (ho : ode.Affine)
    (hs : simOde.Affine) (cfg : Config ℝ) {r : Sim 4 1 cfg.divideNum.toNat ℝ}
    (h : run L (startAt p.problem 0 0) ode simOde cfg = .ok r) : r.x = 0 ∧ r.u = 0 ∧ ∀ q ∈ r.dump, q.x = 0 ∧ q.u = 0 := by
  have ht : turned 0 0 = 0 := by
    funext i
    fin_cases i <;> simp [turned]
  have hm : p.moved (-1) (turned 0 0) = p := by
    unfold CgCartPole.moved
    rw [ht, hr]
    cases p
    simp at hr ⊢
    exact hr.symm
  have hP : startAt (p.moved (-1) (turned 0 0)).problem ((-1 : ℝ) • 0 + turned 0 0) ((-1 : ℝ) • 0) = startAt p.problem 0 0 := by
    rw [hm, ht, smul_zero, smul_zero, add_zero]
  have h1 := (congrArg (fun P => run L P ode simOde cfg) hP).symm.trans (C128_cartpole p (.inr rfl) 0 0 ho hs cfg (L := L) 0 0 0).1
  rw [h] at h1
  have h2 : r = (cartChange p (.inr rfl) 0 0 0 0).sim r := by
    injection h1
  have hself : ∀ {k : ℕ} (v w : Vec k ℝ), w = 0 → v = (-1 : ℝ) • v + w → v = 0 := fun v w hw hv => by
    rw [neg_one_smul, hw, add_zero] at hv
    exact self_eq_neg.1 hv
  refine ⟨hself _ _ ht (congrArg Sim.x h2), hself _ _ rfl (congrArg Sim.u h2), fun q hq => ?_⟩
  have h3 := self_mirror _ _ (congrArg Sim.dump h2).symm q hq
  exact ⟨hself _ _ ht (congrArg Dump.x h3).symm, hself _ _ rfl (congrArg Dump.u h3).symm⟩

/-! ## Semiactive damper -/

/-- The semiactive damper, mirrored: the inputs are kept. -/
noncomputable def damperChange (p : Damper ℝ) (x0 : Vec 2 ℝ) (u0 : Vec 3 ℝ) :
    Change (startAt p.problem x0 u0) (startAt p.problem (-x0) u0) where
  T := -LinearMap.id
  a := 0
  C := -LinearMap.id
  Q := LinearMap.id
  d := 0
  c := 1
  iso := ⟨fun _ _ => rfl⟩
  pos := one_pos
  state t x u := by
    funext i
    fin_cases i <;> simp [startAt, Damper.problem]
    ring
  costate t l x u := by
    rw [add_zero, add_zero]
    funext i
    fin_cases i
    · change -p.a * -l 1 - p.q1 * -x 0 = -(-p.a * l 1 - p.q1 * x 0)
      ring
    · change -p.b * -l 1 * u 1 - p.q2 * -x 1 - -l 0 = -(-p.b * l 1 * u 1 - p.q2 * x 1 - l 0)
      ring
  dphidx t x := by
    funext i
    fin_cases i <;> simp [startAt, Damper.problem]
  dhdu t x u l := by
    funext i
    fin_cases i <;> simp [startAt, Damper.problem]

/-- **C128** The semiactive damper behaves the same on both sides of its rest position: from the opposite initial state `run` applies
the same inputs and visits the opposite states. -/
theorem C128_damper (p : Damper ℝ) {L : Gmres.Dense ℝ} {ode simOde : Ode ℝ} (ho : ode.Affine) (hs : simOde.Affine) (cfg : Config ℝ)
    (x0 : Vec 2 ℝ) (u0 : Vec 3 ℝ) :
    run L (startAt p.problem (-x0) u0) ode simOde cfg = (run L (startAt p.problem x0 u0) ode simOde cfg).map (damperChange p x0 u0).sim ∧
    ∀ q : Dump 2 3 ℝ, (damperChange p x0 u0).dump q = { q with x := -q.x } :=
  ⟨(damperChange p x0 u0).C128_run rfl ho hs cfg (by simp [startAt, damperChange]) (by simp [startAt, damperChange]),
    fun q => by simp [Change.dump, damperChange]⟩

/-- The integrators of the library and the triangular solver by back substitution meet the hypotheses: the damper example with its
parameters, started at `(-2, 0)` instead of `(2, 0)`, with the Runge-Kutta plant of the tests. -/
example (qr : {k : ℕ} → Mat (k + 1) k ℝ → Vec (k + 1) ℝ → Vec k ℝ) :
    run ⟨qr, Gmres.backSub⟩ (startAt (Damper.default : Damper ℝ).problem (-![2, 0]) ![1 / 100, 9 / 10, 3 / 100]) eulerOde rkOde
        defaultConfig =
      (run ⟨qr, Gmres.backSub⟩ (startAt (Damper.default : Damper ℝ).problem ![2, 0] ![1 / 100, 9 / 10, 3 / 100]) eulerOde rkOde
        defaultConfig).map (damperChange Damper.default ![2, 0] ![1 / 100, 9 / 10, 3 / 100]).sim :=
  (C128_damper _ euler_affine rk_affine _ _ _).1

/-- The control update of the bounded cart-pole with the cost in another unit; the library solves with the triangular factor. -/
example (qr : {k : ℕ} → Mat (k + 1) k ℝ → Vec (k + 1) ℝ → Vec k ℝ)
    (hq : ∀ {k : ℕ} (A : Mat (k + 1) k ℝ) (b : Vec (k + 1) ℝ), qr ((1000 : ℝ) • A) ((1000 : ℝ) • b) = qr A b) (t : ℝ) (x y : Vec 4 ℝ)
    (s : Mem 3 25 ℝ) :
    calcControlInput ⟨qr, Gmres.backSub⟩ (scaleCost (CgCartPole.default : CgCartPole ℝ).bounded 1000) eulerOde defaultConfig t x y
        { s with dhdu := (1000 : ℝ) • s.dhdu } =
      (calcControlInput ⟨qr, Gmres.backSub⟩ (CgCartPole.default : CgCartPole ℝ).bounded eulerOde defaultConfig t x y s).map
        fun q => ({ q.1 with dhdu := (1000 : ℝ) • q.1.dhdu }, q.2) :=
  C128_cost _ (by norm_num) ⟨hq, Gmres.backSub_homogeneous (by norm_num)⟩ euler_affine _ _ _ _ _

/-- A change of units and a rotation of the inputs: metres to millimetres in the first coordinate, inputs exchanged. -/
example : (!![1 / 1000, 0; 0, 1] : Mat 2 2 ℝ) * !![1000, 0; 0, 1] = 1 ∧ (!![0, 1; 1, 0] : Mat 2 2 ℝ)ᵀ * !![0, 1; 1, 0] = 1 := by
  constructor <;> (ext i j; fin_cases i <;> fin_cases j <;> simp [Matrix.mul_apply, Fin.sum_univ_two])

end Nmpc.Problems
