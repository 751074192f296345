import Verif.CGMRES.Sweep

/-!
# The continuation equation of C/GMRES (C52), in exact arithmetic
-/

namespace Nmpc.Cgmres

open Finset Matrix

variable {n m N : ℕ} (L : Gmres.Dense ℝ) (P : Problem n m ℝ) (ode : Ode ℝ) (cfg : Config ℝ)

theorem calcControlInput_ok {t : ℝ} {x nextX : Vec n ℝ} {s s' : Mem m N ℝ} {u : Vec m ℝ}
    (h : calcControlInput L P ode cfg t x nextX s = .ok (s', u)) :
    0 < N ∧ ∃ r, linearSolve L P ode cfg t x nextX s = .ok r ∧ s'.deltaU = r.x ∧
      s'.uList = (fun i => s.uList i + cfg.dt • segment r.x i) ∧ s'.dhdu = dhduList P ode cfg t x s.uList ∧
      ∀ h : 0 < N, u = s'.uList ⟨0, h⟩ := by
  unfold calcControlInput at h
  cases hl : linearSolve L P ode cfg t x nextX s with
  | ok r =>
    rw [hl] at h
    dsimp only [Res.bind_ok] at h
    by_cases hN : 0 < N
    · rw [dif_pos hN] at h
      injection h with h
      injection h with h1 h2
      subst h1; subst h2
      exact ⟨hN, r, rfl, rfl, rfl, rfl, fun _ => rfl⟩
    · rw [dif_neg hN] at h; cases h
  | _ => rw [hl] at h; cases h

theorem flatten_add (U V : Fin N → Vec m ℝ) : flatten (fun i => U i + V i) = flatten U + flatten V := rfl
theorem flatten_smul (c : ℝ) (U : Fin N → Vec m ℝ) : flatten (fun i => c • U i) = c • flatten U := rfl

theorem flatten_inj {U V : Fin N → Vec m ℝ} (h : flatten U = flatten V) : U = V := by
  funext i
  rw [← C53_segment_flatten U i, h, C53_segment_flatten]

/-- The shifted residual and the residual of the linear equation. -/
theorem shift_eq (hd : cfg.delta ≠ 0) (t : ℝ) (y : Vec n ℝ) (U F : Fin N → Vec m ℝ) (v : Vec (N * m) ℝ) :
    flatten (dhduList P ode cfg t y fun i => U i + cfg.delta • segment v i) - (1 - cfg.zeta * cfg.delta) • flatten F =
      cfg.delta • (eqAmul P ode cfg t y U (dhduList P ode cfg t y U) v - eqB cfg F (dhduList P ode cfg t y U)) := by
  funext k
  simp only [eqAmul, eqB, smulv_real, Pi.sub_apply, Pi.smul_apply, smul_eq_mul]
  rw [div_sub_div_same, mul_div_cancel₀ _ hd]
  ring

/-- **C52**: `calcControlInput` advances the inputs by `dt` times what GMRES returns for a linear equation `A d = b` for which, with
any direction `d`, `δ (A d - b)` is the difference of the residual (the list of `∂H/∂u` over the horizon) at the time `t + δ`, at the state
interpolated between `x` and the next state and with all inputs advanced by `δ d`, and `1 - ζ δ` times the residual at
`t`, `x` and the old inputs.  So the equation is solved exactly if and only if the shifted residual is `1 - ζ δ` times the old one. -/
theorem C52_shift (hd : cfg.delta ≠ 0) {t : ℝ} {x nextX : Vec n ℝ} {s s' : Mem m N ℝ} {u : Vec m ℝ}
    (h : calcControlInput L P ode cfg t x nextX s = .ok (s', u)) :
    ∃ (A : Vec (N * m) ℝ → Vec (N * m) ℝ) (b : Vec (N * m) ℝ) (r : Gmres.Out (N * m) ℝ),
      Gmres.solve L { makeTriangular := true, applyReorth := true, kMax := cfg.kMax, eps := 1 / 10 ^ 10 } A b s.deltaU = .ok r ∧
      (∀ i, s'.uList i = s.uList i + cfg.dt • segment r.x i) ∧ s'.deltaU = r.x ∧
      ∀ d : Vec (N * m) ℝ,
        let y := (1 - cfg.delta / cfg.dt) • x + (cfg.delta / cfg.dt) • nextX
        let F := dhduList P ode cfg t x s.uList
        let F' := dhduList P ode cfg (t + cfg.delta) y fun i => s.uList i + cfg.delta • segment d i
        cfg.delta • (A d - b) = flatten F' - (1 - cfg.zeta * cfg.delta) • flatten F ∧
        (A d = b ↔ ∀ i, F' i = (1 - cfg.zeta * cfg.delta) • F i) := by
  obtain ⟨_, r, hl, hr, hU, _, _⟩ := calcControlInput_ok L P ode cfg h
  refine ⟨eqAmul P ode cfg (t + cfg.delta) (xDelta cfg x nextX) s.uList
      (dhduList P ode cfg (t + cfg.delta) (xDelta cfg x nextX) s.uList),
    eqB cfg (dhduList P ode cfg t x s.uList) (dhduList P ode cfg (t + cfg.delta) (xDelta cfg x nextX) s.uList),
    r, ?_, fun i => by rw [hU], hr, ?_⟩
  rotate_left
  · intro d y F F'
    have e := shift_eq P ode cfg hd (t + cfg.delta) y s.uList F d
    refine ⟨e.symm, ?_⟩
    constructor
    · intro h
      change eqAmul P ode cfg (t + cfg.delta) y s.uList (dhduList P ode cfg (t + cfg.delta) y s.uList) d =
        eqB cfg F (dhduList P ode cfg (t + cfg.delta) y s.uList) at h
      rw [h, sub_self, smul_zero, sub_eq_zero, ← flatten_smul] at e
      exact fun i => congrFun (flatten_inj e) i
    · intro h
      have : F' = fun i => (1 - cfg.zeta * cfg.delta) • F i := funext h
      change flatten F' - _ = _ at e
      rw [this, flatten_smul, sub_self] at e
      have := (smul_eq_zero.mp e.symm).resolve_left hd
      exact sub_eq_zero.mp this
  · have : (gmresConfig cfg.kMax : Gmres.Config ℝ) =
        { makeTriangular := true, applyReorth := true, kMax := cfg.kMax, eps := 1 / 10 ^ 10 } := by
      simp [gmresConfig]
    rw [← this]
    exact hl

/-- **C52**, affine residual: if the linear equation is solved exactly (`hex`, see `C52_shift`) and the residual changes affinely along the step (as a function of
the fraction of the step from `(t, x, U)` to `(t + dt, next state, U + dt d)`), then the residual at the next time, next state and
with the new inputs is `1 - ζ dt` times the old one. -/
theorem C52_affine (hd : cfg.delta ≠ 0) (hdt : cfg.dt ≠ 0) {t : ℝ} {x nextX : Vec n ℝ} {s s' : Mem m N ℝ} {u : Vec m ℝ}
    (h : calcControlInput L P ode cfg t x nextX s = .ok (s', u))
    (hex : ∀ i, dhduList P ode cfg (t + cfg.delta) ((1 - cfg.delta / cfg.dt) • x + (cfg.delta / cfg.dt) • nextX)
      (fun i => s.uList i + cfg.delta • segment s'.deltaU i) i = (1 - cfg.zeta * cfg.delta) • dhduList P ode cfg t x s.uList i)
    (haff : ∃ a b : Fin N → Vec m ℝ, ∀ τ, τ = 0 ∨ τ = cfg.delta ∨ τ = cfg.dt → ∀ i,
      dhduList P ode cfg (t + τ) ((1 - τ / cfg.dt) • x + (τ / cfg.dt) • nextX)
        (fun i => s.uList i + τ • segment s'.deltaU i) i = a i + τ • b i) (i : Fin N) :
    dhduList P ode cfg (t + cfg.dt) nextX s'.uList i = (1 - cfg.zeta * cfg.dt) • dhduList P ode cfg t x s.uList i := by
  have hs := hex i
  obtain ⟨a, b, hab⟩ := haff
  obtain ⟨_, r, _, hr, hU, _, _⟩ := calcControlInput_ok L P ode cfg h
  have h0 := hab 0 (.inl rfl) i
  have h1 := hab cfg.delta (.inr (.inl rfl)) i
  have h2 := hab cfg.dt (.inr (.inr rfl)) i
  simp only [add_zero, zero_div, sub_zero, one_smul, zero_smul] at h0
  rw [div_self hdt, sub_self, zero_smul, zero_add, one_smul, hr] at h2
  rw [← hU] at h2
  rw [h1, h0] at hs
  rw [h2, h0]
  have hb : cfg.delta • b i = cfg.delta • ((-cfg.zeta) • a i) := by
    linear_combination (norm := module) hs
  have hb := smul_right_injective _ hd hb
  rw [hb]
  module

/-- **C52** with the GMRES solver: if, at the shifted time and state, the residual is affine in the inputs with an invertible matrix, and the
limit on the GMRES rounds is at least the number of unknowns, then the shifted residual differs from `1 - ζ δ` times the old one by at
most `1e-10 δ ‖b‖`, where `δ ‖b‖` is the distance of the shifted residual with unchanged inputs from that target. -/
theorem C52_gmres (hL : L.Exact) (hd : cfg.delta ≠ 0) (hk : ((N * m : ℕ) : ℤ) ≤ cfg.kMax) {t : ℝ} {x nextX : Vec n ℝ}
    {s s' : Mem m N ℝ} {u : Vec m ℝ} (h : calcControlInput L P ode cfg t x nextX s = .ok (s', u))
    (M : Mat (N * m) (N * m) ℝ) (c : Vec (N * m) ℝ) (hM : IsUnit M.det)
    (haff : ∀ V : Fin N → Vec m ℝ, flatten (dhduList P ode cfg (t + cfg.delta)
      ((1 - cfg.delta / cfg.dt) • x + (cfg.delta / cfg.dt) • nextX) V) = M *ᵥ flatten V + c) :
    let δ := cfg.delta
    let y := (1 - δ / cfg.dt) • x + (δ / cfg.dt) • nextX
    let target := (1 - cfg.zeta * δ) • flatten (dhduList P ode cfg t x s.uList)
    Gmres.norm2 (flatten (dhduList P ode cfg (t + δ) y fun i => s.uList i + δ • segment s'.deltaU i) - target) ≤
      1 / 10 ^ 10 * Gmres.norm2 (flatten (dhduList P ode cfg (t + δ) y s.uList) - target) := by
  intro δ y target
  obtain ⟨_, r, hl, hr, _, _, _⟩ := calcControlInput_ok L P ode cfg h
  have hA : eqAmul P ode cfg (t + δ) y s.uList (dhduList P ode cfg (t + δ) y s.uList) = FOps.mulVec M := by
    funext v k
    simp only [eqAmul, smulv_real]
    rw [haff, haff, flatten_add, flatten_smul, show flatten (fun i => segment v i) = v from C53_flatten_segment v,
      mulVec_add, mulVec_smul]
    simp only [Pi.add_apply, Pi.smul_apply, smul_eq_mul, mulVec_real]
    field_simp
    ring
  have hs : Gmres.solveMat L (gmresConfig cfg.kMax) M
      (eqB cfg (dhduList P ode cfg t x s.uList) (dhduList P ode cfg (t + δ) y s.uList)) s.deltaU = .ok r := by
    unfold Gmres.solveMat
    rw [← hA]
    exact hl
  have key := Gmres.C48_solves L (gmresConfig cfg.kMax) _ _ hL M hM (by simp [gmresConfig]) (by simpa [gmresConfig] using hk) hs
  have hb : eqB cfg (dhduList P ode cfg t x s.uList) (dhduList P ode cfg (t + δ) y s.uList) =
      (-δ⁻¹) • (flatten (dhduList P ode cfg (t + δ) y s.uList) - target) := by
    funext k
    simp only [eqB, target, Pi.sub_apply, Pi.smul_apply, smul_eq_mul]
    rw [div_eq_mul_inv]
    ring
  have hn : Gmres.norm2 (flatten (dhduList P ode cfg (t + δ) y fun i => s.uList i + δ • segment s'.deltaU i) - target) =
      |δ| * Gmres.norm2 (eqB cfg (dhduList P ode cfg t x s.uList) (dhduList P ode cfg (t + δ) y s.uList) - M *ᵥ s'.deltaU) := by
    rw [shift_eq P ode cfg hd, hA]
    unfold Gmres.norm2
    rw [WithLp.toLp_smul, norm_smul, Real.norm_eq_abs, ← norm_neg, ← WithLp.toLp_neg, neg_sub]
    rfl
  rw [hn, hr]
  have hbn : Gmres.norm2 (eqB cfg (dhduList P ode cfg t x s.uList) (dhduList P ode cfg (t + δ) y s.uList)) =
      |δ|⁻¹ * Gmres.norm2 (flatten (dhduList P ode cfg (t + δ) y s.uList) - target) := by
    rw [hb]
    unfold Gmres.norm2
    rw [WithLp.toLp_smul, norm_smul, Real.norm_eq_abs, abs_neg, abs_inv]
  rw [hbn] at key
  have hpos : 0 < |δ| := abs_pos.mpr hd
  calc |δ| * _ ≤ |δ| * ((gmresConfig cfg.kMax : Gmres.Config ℝ).eps * (|δ|⁻¹ * _)) := mul_le_mul_of_nonneg_left key hpos.le
    _ = _ := by
      simp only [gmresConfig, lit_real]
      push_cast
      field_simp

end Nmpc.Cgmres
