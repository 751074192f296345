import Verif.FMPC.InfeasibleProps
import Verif.Problems.CompactCases
import Verif.FMPC.FeedbackExample

/-!
# C147 for the examples of FMPC: cart-pole and Van der Pol oscillator
-/

namespace Nmpc.Problems

open Matrix Finset
open DDP (timeAt)

section CartPole

variable {p : CartPole ℝ} {refPos : ℝ → ℝ} {sdt : ℝ}

theorem cartPole_cont_stateEq (h1 : 0 < p.m1) (h2 : 0 ≤ p.m2) (hl : p.l ≠ 0) :
    Continuous fun q : Vec 4 ℝ × Vec 1 ℝ => p.stateEq sdt q.1 q.2 := by
  have hd : ∀ a, p.m1 + p.m2 * (Real.sin a * Real.sin a) ≠ 0 := fun a => (cartPole_denom_pos p h1 h2 a).ne'
  have hld : ∀ a, p.l * (p.m1 + p.m2 * (Real.sin a * Real.sin a)) ≠ 0 := fun a => mul_ne_zero hl (hd a)
  refine continuous_pi fun i => ?_
  fin_cases i <;> simp [CartPole.stateEq, CartPole.denom, vecHead, vecTail] <;> fun_prop (disch := intro; simp_all)

theorem cartPole_compact (h1 : 0 < p.m1) (h2 : 0 ≤ p.m2) (hl : p.l ≠ 0) (t0 dt : ℝ) (N : ℕ) :
    FMPC.CompactInputs (p.fmpc refPos sdt) t0 dt N where
  dyn _ _ := cartPole_cont_stateEq h1 h2 hl
  ineq _ _ := by
    refine continuous_pi fun i => ?_
    fin_cases i <;> simp [CartPole.fmpc, CartPole.ineqConst] <;> fun_prop
  bounded _ := ⟨16, fun i _ x u _ hg => by
    refine (pi_norm_le_iff_of_nonneg (by norm_num)).2 fun j => ?_
    obtain rfl : j = 0 := Subsingleton.elim _ _
    have e1 := hg 0
    have e2 := hg 1
    simp [CartPole.fmpc, CartPole.ineqConst] at e1 e2
    exact abs_le.2 ⟨by linarith, by linarith⟩⟩

theorem cartPole_derivs (h1 : 0 < p.m1) (h2 : 0 ≤ p.m2) (hl : p.l ≠ 0) (t0 dt : ℝ) (N : ℕ) :
    FMPC.ContinuousDerivs (p.fmpc refPos sdt) t0 dt N where
  Fx _ _ _ := cartPole_contFx h1 h2 hl
  Fu _ _ _ := cartPole_contFu h1 h2 hl
  C _ _ _ := continuous_const
  D _ _ _ := continuous_const
  Lx i hi _ := (cartPole_smooth (sdt := sdt) h1 h2 hl t0 dt N).contLx i hi
  Lu i hi _ := (cartPole_smooth (sdt := sdt) h1 h2 hl t0 dt N).contLu i hi
  Vx _ := (cartPole_smooth (sdt := sdt) h1 h2 hl t0 dt N).contVx

theorem cartPole_overwrites : (p.fmpc refPos sdt).Overwrites :=
  ⟨fun _ _ _ _ _ => rfl, fun _ _ _ _ _ => rfl, fun _ _ _ _ _ => rfl, fun _ _ _ _ => rfl⟩

/-- **C147** for the cart-pole example of FMPC, any reference and initial state.  For every `η > 0` and every bound `B` there is a threshold such that every call with
at most this threshold that returns `Succeeded` leaves states and inputs within `η` of a motion of the cart-pole with `|u| ≤ 15` and cart position
`|x| ≤ 20`, and, if its multipliers are bounded by `B`, all variables within `η` of an exact KKT point. -/
theorem C147_cartpole (h1 : 0 < p.m1) (h2 : 0 ≤ p.m2) (hl : p.l ≠ 0) (t0 dt : ℝ) (N : ℕ) (x0 : Vec 4 ℝ) (B : ℝ) {η : ℝ} (hη : 0 < η) :
    ∃ ε, 0 < ε ∧ ∀ (L : FMPC.GainSolver ℝ) (cfg : FMPC.Config ℝ) (o o' : FMPC.Obj 4 ℝ) (sc : FMPC.Scratch 4 (fun _ => 1) (fun _ => 4) ℝ)
      (init : FMPC.VarL 4 ℝ), cfg.horizon.toNat = N → (cfg.initComplementary = true ∨ init.Pos) → cfg.kktErrorThre ≤ ε →
      FMPC.solve L (p.fmpc refPos sdt) dt cfg o t0 sc x0 init = (o', .ok .succeeded) →
      (∃ (v : FMPC.Var 4 (fun _ => 1) (fun _ => 4) ℝ) (y : ℕ → Vec 4 ℝ) (z : ℕ → Vec 1 ℝ), o'.var = v.out N ∧
        y 0 = x0 ∧ (∀ i < N, y (i + 1) = p.stateEq sdt (y i) (z i) ∧ |z i 0| ≤ 15 ∧ |y i 0| ≤ 20) ∧
        (∀ i ≤ N, ‖v.x i - y i‖ ≤ η) ∧ ∀ i < N, ‖v.u i - z i‖ ≤ η) ∧
      ((∀ e ∈ o'.var.nus, ∀ j, |e.2 j| ≤ B) →
        ∃ v w : FMPC.Var 4 (fun _ => 1) (fun _ => 4) ℝ, o'.var = v.out N ∧
          (∃ dF dG dL dV, FMPC.DerivsAt (p.fmpc refPos sdt) t0 dt N w dF dG dL dV ∧ FMPC.KktWithin (p.fmpc refPos sdt) t0 dt x0 N w dF dG dL dV 0) ∧
          (∀ i < N, ∀ j, 0 ≤ w.s i j ∧ 0 ≤ w.nu i j) ∧
          (∀ i ≤ N, ‖v.x i - w.x i‖ ≤ η ∧ ‖v.lam i - w.lam i‖ ≤ η) ∧
          ∀ i < N, ‖v.u i - w.u i‖ ≤ η ∧ ‖v.s i - w.s i‖ ≤ η ∧ ‖v.nu i - w.nu i‖ ≤ η) := by
  obtain ⟨ε1, p1, k1⟩ := FMPC.C147_feasible (cartPole_compact (refPos := refPos) (sdt := sdt) h1 h2 hl t0 dt N) x0 hη
  obtain ⟨ε2, p2, k2⟩ := FMPC.C147_kkt (cartPole_compact (refPos := refPos) (sdt := sdt) h1 h2 hl t0 dt N) (cartPole_derivs h1 h2 hl t0 dt N) cartPole_overwrites x0 B hη
  refine ⟨min ε1 ε2, lt_min p1 p2, fun L cfg o o' sc init hN hp ht hs => ⟨?_, fun hb => ?_⟩⟩
  · obtain ⟨v, y, z, a1, a2, a3, a4⟩ := k1 L cfg o o' sc init hN hp (ht.trans (min_le_left _ _)) hs
    refine ⟨v, y, z, a1, a2.init, fun i hi => ⟨a2.dyn i hi, ?_⟩, a3, a4⟩
    have g := a2.ineq i hi
    have g0 := g 0
    have g1 := g 1
    have g2 := g 2
    have g3 := g 3
    simp [CartPole.fmpc, CartPole.ineqConst] at g0 g1 g2 g3
    exact ⟨abs_le.2 ⟨by linarith, by linarith⟩, abs_le.2 ⟨by linarith, by linarith⟩⟩
  · exact k2 L cfg o o' sc init hN hp (ht.trans (min_le_right _ _)) hs hb

/-- **C147** for the cart-pole example: if the cart is outside of `|x| ≤ 20` or leaves it within the first step, there is a threshold below which no call
with a horizon of at least two steps reports success. -/
theorem C147_cartpole_infeasible (h1 : 0 < p.m1) (h2 : 0 ≤ p.m2) (hl : p.l ≠ 0) (t0 dt : ℝ) {N : ℕ} (hN2 : 2 ≤ N) {x0 : Vec 4 ℝ}
    (hout : 20 < |x0 0| ∨ 20 < |x0 0 + sdt * x0 2|) :
    ∃ ε, 0 < ε ∧ ∀ (L : FMPC.GainSolver ℝ) (cfg : FMPC.Config ℝ) (o : FMPC.Obj 4 ℝ) (sc : FMPC.Scratch 4 (fun _ => 1) (fun _ => 4) ℝ)
      (init : FMPC.VarL 4 ℝ), cfg.horizon.toNat = N → (cfg.initComplementary = true ∨ init.Pos) → cfg.kktErrorThre ≤ ε →
      (FMPC.solve L (p.fmpc refPos sdt) dt cfg o t0 sc x0 init).2 ≠ .ok .succeeded := by
  refine FMPC.C147_infeasible (cartPole_compact h1 h2 hl t0 dt N) ?_
  rintro ⟨y, z, h⟩
  have hb : ∀ i < N, |y i 0| ≤ 20 := fun i hi => by
    have g := h.ineq i hi
    have g2 := g 2
    have g3 := g 3
    simp [CartPole.fmpc, CartPole.ineqConst] at g2 g3
    exact abs_le.2 ⟨by linarith, by linarith⟩
  have b0 := hb 0 (by omega)
  have b1 := hb 1 (by omega)
  have e1 : y 1 = p.stateEq sdt (y 0) (z 0) := h.dyn 0 (by omega)
  rw [h.init] at b0 e1
  have e2 : y 1 0 = x0 0 + sdt * x0 2 := by rw [e1]; simp [CartPole.stateEq, vecHead]
  rw [e2] at b1
  rcases hout with h | h <;> linarith

end CartPole

section Oscillator

variable {sdt : ℝ}

theorem oscillator_compact (t0 dt : ℝ) (N : ℕ) : FMPC.CompactInputs (oscillator sdt) t0 dt N where
  dyn _ _ := by
    refine continuous_pi fun i => ?_
    fin_cases i <;> simp [oscillator, vecHead, vecTail] <;> fun_prop
  ineq _ _ := by
    refine continuous_pi fun i => ?_
    fin_cases i <;> simp [oscillator] <;> fun_prop
  bounded _ := ⟨2, fun i _ x u _ hg => by
    refine (pi_norm_le_iff_of_nonneg (by norm_num)).2 fun j => ?_
    obtain rfl : j = 0 := Subsingleton.elim _ _
    have e1 := hg 1
    have e2 := hg 2
    simp [oscillator] at e1 e2
    exact abs_le.2 ⟨by linarith, by linarith⟩⟩

theorem oscillator_derivs (t0 dt : ℝ) (N : ℕ) : FMPC.ContinuousDerivs (oscillator sdt) t0 dt N where
  Fx _ _ _ := by
    refine continuous_matrix fun i j => ?_
    fin_cases i <;> fin_cases j <;> simp [oscillator, addDiag, scaleM] <;> fun_prop
  Fu _ _ _ := continuous_const
  C _ _ _ := continuous_const
  D _ _ _ := continuous_const
  Lx _ _ _ := continuous_fst
  Lu _ _ _ := continuous_snd
  Vx _ := continuous_const

/-- **C147** for the Van der Pol oscillator: states and inputs within `η` of a motion of the oscillator with `-1 ≤ u ≤ 0.9` and second state at least `-0.05`, and all variables within `η`
of an exact KKT point if the multipliers are bounded by `B`. -/
theorem C147_oscillator (t0 dt : ℝ) (N : ℕ) (x0 : Vec 2 ℝ) (B : ℝ) {η : ℝ} (hη : 0 < η) :
    ∃ ε, 0 < ε ∧ ∀ (L : FMPC.GainSolver ℝ) (cfg : FMPC.Config ℝ) (o o' : FMPC.Obj 2 ℝ) (sc : FMPC.Scratch 2 (fun _ => 1) (fun _ => 3) ℝ)
      (init : FMPC.VarL 2 ℝ), cfg.horizon.toNat = N → (cfg.initComplementary = true ∨ init.Pos) → cfg.kktErrorThre ≤ ε →
      FMPC.solve L (oscillator sdt) dt cfg o t0 sc x0 init = (o', .ok .succeeded) →
      (∃ (v : FMPC.Var 2 (fun _ => 1) (fun _ => 3) ℝ) (y : ℕ → Vec 2 ℝ) (z : ℕ → Vec 1 ℝ), o'.var = v.out N ∧
        y 0 = x0 ∧ (∀ i < N, y (i + 1) = y i + sdt • ![(1 - y i 1 ^ 2) * y i 0 - y i 1 + z i 0, y i 0] ∧
          -1 ≤ z i 0 ∧ z i 0 ≤ 9 / 10 ∧ -(1 / 20) ≤ y i 1) ∧
        (∀ i ≤ N, ‖v.x i - y i‖ ≤ η) ∧ ∀ i < N, ‖v.u i - z i‖ ≤ η) ∧
      ((∀ e ∈ o'.var.nus, ∀ j, |e.2 j| ≤ B) →
        ∃ v w : FMPC.Var 2 (fun _ => 1) (fun _ => 3) ℝ, o'.var = v.out N ∧
          (∃ dF dG dL dV, FMPC.DerivsAt (oscillator sdt) t0 dt N w dF dG dL dV ∧ FMPC.KktWithin (oscillator sdt) t0 dt x0 N w dF dG dL dV 0) ∧
          (∀ i < N, ∀ j, 0 ≤ w.s i j ∧ 0 ≤ w.nu i j) ∧
          (∀ i ≤ N, ‖v.x i - w.x i‖ ≤ η ∧ ‖v.lam i - w.lam i‖ ≤ η) ∧
          ∀ i < N, ‖v.u i - w.u i‖ ≤ η ∧ ‖v.s i - w.s i‖ ≤ η ∧ ‖v.nu i - w.nu i‖ ≤ η) := by
  obtain ⟨ε1, p1, k1⟩ := FMPC.C147_feasible (oscillator_compact (sdt := sdt) t0 dt N) x0 hη
  obtain ⟨ε2, p2, k2⟩ := FMPC.C147_kkt (oscillator_compact (sdt := sdt) t0 dt N) (oscillator_derivs t0 dt N)
    ⟨fun _ _ _ _ _ => rfl, fun _ _ _ _ _ => rfl, fun _ _ _ _ _ => rfl, fun _ _ _ _ => rfl⟩ x0 B hη
  refine ⟨min ε1 ε2, lt_min p1 p2, fun L cfg o o' sc init hN hp ht hs => ⟨?_, fun hb => ?_⟩⟩
  · obtain ⟨v, y, z, a1, a2, a3, a4⟩ := k1 L cfg o o' sc init hN hp (ht.trans (min_le_left _ _)) hs
    refine ⟨v, y, z, a1, a2.init, fun i hi => ⟨?_, ?_⟩, a3, a4⟩
    · refine (a2.dyn i hi).trans ?_
      funext j
      fin_cases j <;> simp [oscillator, sq, vecHead, vecTail]
    · have g := a2.ineq i hi
      have g0 := g 0
      have g1 := g 1
      have g2 := g 2
      simp [oscillator] at g0 g1 g2
      exact ⟨by linarith, by linarith, by linarith⟩
  · exact k2 L cfg o o' sc init hN hp (ht.trans (min_le_right _ _)) hs hb

/-- **C147** for the Van der Pol oscillator: if the second state is below `-0.05` or falls below it within the first step, there is a threshold below which no call with a horizon of at least two
steps reports success. -/
theorem C147_oscillator_infeasible (t0 dt : ℝ) {N : ℕ} (hN2 : 2 ≤ N) {x0 : Vec 2 ℝ} (hout : x0 1 < -(1 / 20) ∨ x0 1 + sdt * x0 0 < -(1 / 20)) :
    ∃ ε, 0 < ε ∧ ∀ (L : FMPC.GainSolver ℝ) (cfg : FMPC.Config ℝ) (o : FMPC.Obj 2 ℝ) (sc : FMPC.Scratch 2 (fun _ => 1) (fun _ => 3) ℝ)
      (init : FMPC.VarL 2 ℝ), cfg.horizon.toNat = N → (cfg.initComplementary = true ∨ init.Pos) → cfg.kktErrorThre ≤ ε →
      (FMPC.solve L (oscillator sdt) dt cfg o t0 sc x0 init).2 ≠ .ok .succeeded := by
  refine FMPC.C147_infeasible (oscillator_compact t0 dt N) ?_
  rintro ⟨y, z, h⟩
  have hb : ∀ i < N, -(1 / 20) ≤ y i 1 := fun i hi => by
    have g0 := h.ineq i hi 0
    simp [oscillator] at g0
    linarith
  have b0 := hb 0 (by omega)
  have b1 := hb 1 (by omega)
  have e1 := congrFun (h.dyn 0 (by omega)) 1
  rw [h.init] at b0 e1
  have e2 : y 1 1 = x0 1 + sdt * x0 0 := by rw [e1]; simp [oscillator, vecHead, vecTail]
  rw [e2] at b1
  rcases hout with h | h <;> linarith

/-- The initial state of the test is `(0, 1)`, which is not of this kind; from `(-2, 0)` with steps of `0.1` no success is possible. -/
example (L : FMPC.GainSolver ℝ) (o : FMPC.Obj 2 ℝ) (sc : FMPC.Scratch 2 (fun _ => 1) (fun _ => 3) ℝ) :
    ∃ ε : ℝ, 0 < ε ∧ ∀ (cfg : FMPC.Config ℝ) (init : FMPC.VarL 2 ℝ), cfg.horizon.toNat = 20 → init.Pos → cfg.kktErrorThre ≤ ε →
      (FMPC.solve L (oscillator (1 / 10)) (1 / 10) cfg o 0 sc ![-2, 0] init).2 ≠ .ok .succeeded := by
  obtain ⟨ε, hε, h⟩ := C147_oscillator_infeasible (sdt := 1 / 10) 0 (1 / 10) (N := 20) (by norm_num) (x0 := ![-2, 0]) (.inr (by norm_num))
  exact ⟨ε, hε, fun cfg init hN hp ht => h L cfg o sc init hN (.inr hp) ht⟩

/-- The rest position with its exact slacks and small multipliers. -/
noncomputable def oscRest (δ : ℝ) : FMPC.VarL 2 ℝ where
  xs := [![0, 0], ![0, 0]]
  us := [⟨1, ![0]⟩]
  lams := [![0, -δ], ![0, 0]]
  ss := [⟨3, ![5 / 100, 1, 9 / 10]⟩]
  nus := [⟨3, fun _ => δ⟩]

theorem oscRest_pos {δ : ℝ} (hδ : 0 < δ) : (oscRest δ).Pos := by
  constructor
  · intro e he j
    simp only [oscRest, List.mem_cons, List.not_mem_nil, or_false] at he
    subst he
    fin_cases j <;> simp
  · intro e he j
    simp only [oscRest, List.mem_cons, List.not_mem_nil, or_false] at he
    subst he
    exact hδ

theorem oscRest_success (L : FMPC.GainSolver ℝ) (o : FMPC.Obj 2 ℝ) (sc : FMPC.Scratch 2 (fun _ => 1) (fun _ => 3) ℝ) {δ : ℝ} (hδ : 0 < δ) :
    ∃ o', FMPC.solve L (oscillator (1 / 100)) (1 / 100) (FMPC.halverCfg (2 * δ)) o 0 sc ![0, 0] (oscRest δ) = (o', .ok .succeeded) ∧
      o'.var.nus = [⟨3, fun _ => δ⟩] := by
  have hpos := oscRest_pos hδ
  have hl : FMPC.LengthsOk (FMPC.halverCfg (2 * δ)).horizon (oscRest δ) := by simp [FMPC.LengthsOk, oscRest, FMPC.halverCfg, FMPC.defaultConfig]
  have hd : FMPC.DimsOk (fun _ : ℝ => 1) (fun _ => 3) 0 (1 / 100) (oscRest δ) := by
    refine ⟨?_, ?_, ?_⟩ <;>
    · intro i hi
      simp only [oscRest, List.length_cons, List.length_nil] at hi
      match i, hi with
      | 0, _ => rfl
  have hn : FMPC.NonNeg (oscRest δ) :=
    ⟨fun e he j => by simpa using (hpos.1 e he j).le, fun e he j => by simpa using (hpos.2 e he j).le⟩
  have hc : FMPC.checkVariable (fun _ : ℝ => 1) (fun _ => 3) 0 (1 / 100) (FMPC.halverCfg (2 * δ)).horizon (oscRest δ) = .ok () :=
    (FMPC.checkVariable_iff (oscRest δ)).2.2.2 ⟨hl, hd, hn⟩
  set w0 := FMPC.initSolver (m := fun i => (fun _ : ℝ => 1) (timeAt 0 (1 / 100) i)) (p := fun i => (fun _ : ℝ => 3) (timeAt 0 (1 / 100) i))
    (oscRest δ) o.eps sc with hw0
  have hx0 : w0.var.x 0 = ![0, 0] := rfl
  have hx1 : w0.var.x 1 = ![0, 0] := rfl
  have hu : w0.var.u 0 = ![0] := rfl
  have hl0 : w0.var.lam 0 = ![0, -δ] := rfl
  have hl1 : w0.var.lam 1 = ![0, 0] := rfl
  have hs0 : w0.var.s 0 = ![5 / 100, 1, 9 / 10] := rfl
  have hn0 : w0.var.nu 0 = fun _ => δ := rfl
  have hk : ∀ e, leb (FMPC.kktOf 1 ![0, 0] (FMPC.prepared 1 (FMPC.stagesOf (oscillator (1 / 100)) 0 (1 / 100) 1) w0 e))
      (FMPC.halverCfg (2 * δ)).kktErrorThre = true := by
    intro e
    rw [leb_real]
    refine (FMPC.kktOf_prepared (P := oscillator (1 / 100)) (x0 := ![0, 0]) (dt := 1 / 100) (t0 := 0) 1 w0 e _).2 ?_
    unfold FMPC.KktWithin FMPC.stageResidual
    simp only [sum_range_one, hx0, hx1, hu, hl0, hl1, hs0, hn0, zero_add]
    simp [FMPC.prepared, FMPC.calcCoeff, FMPC.calcTerm, FMPC.stagesOf, oscillator, Fin.sum_univ_two, Fin.sum_univ_three, hx0, hx1, hu]
    show _ ≤ 2 * δ
    rw [Real.sqrt_le_left (by positivity)]
    rw [max_eq_left (by positivity), max_eq_left hδ.le, max_eq_left (by positivity)]
    nlinarith [sq_nonneg δ]
  obtain ⟨o', h1, h2⟩ := FMPC.start_accepted (L := L) (P := oscillator (1 / 100)) (cfg := FMPC.halverCfg (2 * δ)) (o := o) (sc := sc) (x0 := ![0, 0]) rfl rfl
    (show (1 : ℤ) ≤ 10 by norm_num) hc hk
  refine ⟨o', h1, ?_⟩
  rw [h2]; rfl

/-- A call that succeeds with a small threshold leaves its point near a motion within the limits and near an exact KKT point. -/
example (L : FMPC.GainSolver ℝ) (o : FMPC.Obj 2 ℝ) (sc : FMPC.Scratch 2 (fun _ => 1) (fun _ => 3) ℝ) {η : ℝ} (hη : 0 < η) :
    ∃ δ o', 0 < δ ∧
      FMPC.solve L (oscillator (1 / 100)) (1 / 100) (FMPC.halverCfg (2 * δ)) o 0 sc ![0, 0] (oscRest δ) = (o', .ok .succeeded) ∧
      ∃ v w : FMPC.Var 2 (fun _ => 1) (fun _ => 3) ℝ, o'.var = v.out 1 ∧
        (∃ dF dG dL dV, FMPC.DerivsAt (oscillator (1 / 100)) 0 (1 / 100) 1 w dF dG dL dV ∧
          FMPC.KktWithin (oscillator (1 / 100)) 0 (1 / 100) ![0, 0] 1 w dF dG dL dV 0) ∧ ‖v.u 0 - w.u 0‖ ≤ η ∧ ‖v.nu 0 - w.nu 0‖ ≤ η := by
  obtain ⟨ε, hε, h⟩ := C147_oscillator (sdt := 1 / 100) 0 (1 / 100) 1 ![0, 0] 1 hη
  have hδ : 0 < min 1 ε / 2 := by have := lt_min one_pos hε; positivity
  have hδ1 : min 1 ε / 2 ≤ 1 := by have := min_le_left 1 ε; linarith
  obtain ⟨o', hs, hnu⟩ := oscRest_success L o sc hδ
  refine ⟨_, o', hδ, hs, ?_⟩
  obtain ⟨v, w, a1, a2, -, -, a5⟩ := (h L (FMPC.halverCfg (2 * (min 1 ε / 2))) o o' sc _ rfl (.inr (oscRest_pos hδ))
    (by show 2 * (min 1 ε / 2) ≤ ε; have := min_le_right 1 ε; linarith) hs).2 (by
      intro e he j
      rw [hnu, List.mem_singleton] at he
      subst he
      exact abs_le.2 ⟨by show -1 ≤ min 1 ε / 2; linarith, hδ1⟩)
  exact ⟨v, w, a1, a2, (a5 0 one_pos).1, (a5 0 one_pos).2.2⟩

end Oscillator

end Nmpc.Problems
