import Verif.Problems.Agree
import Verif.FMPC.Sim

/-!
# C135: what the state feedback of the FMPC simulation costs (exact arithmetic)
-/

set_option linter.unusedSectionVars false

namespace Nmpc.Agree

open Matrix Finset
open DDP (timeAt LQProblem)
open FMPC (FeasibleTraj trajCost)

/-! ## Specification -/

section Spec
variable {n : ℕ} {md pd : ℝ → ℕ}

/-- The costs of the trajectories that start at `x`. -/
def costsFrom (P : FMPC.Callbacks n md pd) (t0 dt : ℝ) (N : ℕ) (x : Vec n ℝ) : Set ℝ :=
  {c | ∃ y z, FeasibleTraj P t0 dt x N y z ∧ trajCost P t0 dt N y z = c}

/-- The costs of the trajectories that start at `x` with the input `v`. -/
def costsWith (P : FMPC.Callbacks n md pd) (t0 dt : ℝ) (N : ℕ) (x : Vec n ℝ) (v : Vec (md (timeAt t0 dt 0)) ℝ) : Set ℝ :=
  {c | ∃ y z, FeasibleTraj P t0 dt x N y z ∧ z 0 = v ∧ trajCost P t0 dt N y z = c}

end Spec

variable {n : ℕ} {md : ℝ → ℕ} {p : LQProblem n md} {dt t0 : ℝ} {x0 : Vec n ℝ} {N : ℕ}

/-! ## Growth of the cost around the cheapest trajectory -/

/-- Differences of two trajectories from the same state. -/
structure LinTraj (p : LQProblem n md) (t0 dt : ℝ) (N : ℕ) (a : ℕ → Vec n ℝ) (b : (i : ℕ) → Vec (md (timeAt t0 dt i)) ℝ) : Prop where
  init : a 0 = 0
  step : ∀ i < N, a (i + 1) = p.A (timeAt t0 dt i) *ᵥ a i + p.B (timeAt t0 dt i) *ᵥ b i

/-- Second-order part of the cost of one stage. -/
noncomputable def quadStage (p : LQProblem n md) (t : ℝ) (a : Vec n ℝ) (b : Vec (md t) ℝ) : ℝ :=
  1 / 2 * (a ⬝ᵥ p.Q t *ᵥ a) + a ⬝ᵥ p.M t *ᵥ b + 1 / 2 * (b ⬝ᵥ p.R t *ᵥ b)

/-- Second-order part of the cost. -/
noncomputable def quadCost (p : LQProblem n md) (t0 dt : ℝ) (N : ℕ) (a : ℕ → Vec n ℝ) (b : (i : ℕ) → Vec (md (timeAt t0 dt i)) ℝ) : ℝ :=
  (∑ i ∈ range N, quadStage p (timeAt t0 dt i) (a i) (b i)) + 1 / 2 * (a N ⬝ᵥ p.Qf (timeAt t0 dt N) *ᵥ a N)

theorem quadStage_nonneg (hp : p.Convex) (t : ℝ) (a : Vec n ℝ) (b : Vec (md t) ℝ) : 0 ≤ quadStage p t a b := by
  have := hp.stage t a b
  unfold quadStage
  linarith

theorem quadTerm_nonneg (hp : p.Convex) (t : ℝ) (a : Vec n ℝ) : 0 ≤ 1 / 2 * (a ⬝ᵥ p.Qf t *ᵥ a) := by
  have h2 := (hp.term t).dotProduct_mulVec_nonneg a
  simp only [star_trivial] at h2
  linarith

theorem quadCost_nonneg (hp : p.Convex) (a : ℕ → Vec n ℝ) (b : (i : ℕ) → Vec (md (timeAt t0 dt i)) ℝ) : 0 ≤ quadCost p t0 dt N a b :=
  add_nonneg (sum_nonneg fun _ _ => quadStage_nonneg hp _ _ _) (quadTerm_nonneg hp _ _)

theorem quadCost_ge (hp : p.Convex) (hN : 0 < N) {a : ℕ → Vec n ℝ} {b : (i : ℕ) → Vec (md (timeAt t0 dt i)) ℝ} (h0 : a 0 = 0) :
    1 / 2 * (b 0 ⬝ᵥ p.R (timeAt t0 dt 0) *ᵥ b 0) ≤ quadCost p t0 dt N a b := by
  have h1 := single_le_sum (f := fun i => quadStage p (timeAt t0 dt i) (a i) (b i)) (s := range N)
    (fun i _ => quadStage_nonneg hp _ _ _) (mem_range.2 hN)
  have h2 : quadStage p (timeAt t0 dt 0) (a 0) (b 0) = 1 / 2 * (b 0 ⬝ᵥ p.R (timeAt t0 dt 0) *ᵥ b 0) := by
    simp [quadStage, h0]
  have h3 := quadTerm_nonneg hp (timeAt t0 dt N) (a N)
  unfold quadCost
  linarith

theorem quadCost_smul (s : ℝ) (a : ℕ → Vec n ℝ) (b : (i : ℕ) → Vec (md (timeAt t0 dt i)) ℝ) :
    quadCost p t0 dt N (fun i => s • a i) (fun i => s • b i) = s ^ 2 * quadCost p t0 dt N a b := by
  unfold quadCost quadStage
  simp only [mulVec_smul, dotProduct_smul, smul_dotProduct, smul_eq_mul]
  rw [mul_add, mul_sum]
  congr 1
  · exact sum_congr rfl fun i _ => by ring
  · ring

theorem stage_expand (t s : ℝ) (x a : Vec n ℝ) (u b : Vec (md t) ℝ) :
    p.callbacks.runningCost t (x + s • a) (u + s • b) = p.callbacks.runningCost t x u +
      s * ((p.Q t *ᵥ x + p.M t *ᵥ u + p.q t) ⬝ᵥ a + ((p.M t)ᵀ *ᵥ x + p.R t *ᵥ u + p.r t) ⬝ᵥ b) + s ^ 2 * quadStage p t a b := by
  have h1 := quad_gap (p.symmQ t) x (x + s • a)
  have h2 := quad_gap (p.symmR t) u (u + s • b)
  rw [add_sub_cancel_left] at h1 h2
  simp only [LQProblem.callbacks, quadStage]
  rw [h1, h2]
  have h3 : ((p.M t)ᵀ *ᵥ x) ⬝ᵥ b = x ⬝ᵥ p.M t *ᵥ b := by rw [mulVec_transpose, ← dotProduct_mulVec]
  simp only [add_dotProduct, dotProduct_add, mulVec_add, mulVec_smul, dotProduct_smul, smul_dotProduct, smul_eq_mul]
  rw [h3, dotProduct_comm (p.M t *ᵥ u) a]
  ring

theorem term_expand (t s : ℝ) (x a : Vec n ℝ) :
    p.callbacks.terminalCost t (x + s • a) = p.callbacks.terminalCost t x + s * ((p.Qf t *ᵥ x + p.qf t) ⬝ᵥ a) +
      s ^ 2 * (1 / 2 * (a ⬝ᵥ p.Qf t *ᵥ a)) := by
  have h1 := quad_gap (p.symmQf t) x (x + s • a)
  rw [add_sub_cancel_left] at h1
  simp only [LQProblem.callbacks]
  rw [h1]
  simp only [add_dotProduct, dotProduct_add, mulVec_smul, dotProduct_smul, smul_dotProduct, smul_eq_mul]
  ring

theorem trajCost_eq (hdt : 0 < dt) (x : ℕ → Vec n ℝ) (u : (i : ℕ) → Vec (md (timeAt t0 dt i)) ℝ) :
    trajCost (fmpcOf p dt) t0 dt N x u = (∑ i ∈ range N, p.callbacks.runningCost (timeAt t0 dt i) (x i) (u i)) +
      p.callbacks.terminalCost (timeAt t0 dt N) (x N) := by
  unfold FMPC.trajCost
  congr 1
  exact sum_congr rfl fun i _ => mul_div_cancel₀ _ hdt.ne'

/-- The cost along a line is a quadratic polynomial. -/
theorem cost_line (hdt : 0 < dt) (x a : ℕ → Vec n ℝ) (u b : (i : ℕ) → Vec (md (timeAt t0 dt i)) ℝ) :
    ∃ l, ∀ s : ℝ, trajCost (fmpcOf p dt) t0 dt N (fun i => x i + s • a i) (fun i => u i + s • b i) =
      trajCost (fmpcOf p dt) t0 dt N x u + s * l + s ^ 2 * quadCost p t0 dt N a b := by
  refine ⟨(∑ i ∈ range N, ((p.Q (timeAt t0 dt i) *ᵥ x i + p.M (timeAt t0 dt i) *ᵥ u i + p.q (timeAt t0 dt i)) ⬝ᵥ a i +
    ((p.M (timeAt t0 dt i))ᵀ *ᵥ x i + p.R (timeAt t0 dt i) *ᵥ u i + p.r (timeAt t0 dt i)) ⬝ᵥ b i)) +
    (p.Qf (timeAt t0 dt N) *ᵥ x N + p.qf (timeAt t0 dt N)) ⬝ᵥ a N, fun s => ?_⟩
  rw [trajCost_eq hdt, trajCost_eq hdt]
  simp only [stage_expand, term_expand, quadCost, sum_add_distrib, ← mul_sum]
  ring

theorem add_lin {x a : ℕ → Vec n ℝ} {u b : (i : ℕ) → Vec (md (timeAt t0 dt i)) ℝ} (hx : FeasibleTraj (fmpcOf p dt) t0 dt x0 N x u)
    (ha : LinTraj p t0 dt N a b) (s : ℝ) : FeasibleTraj (fmpcOf p dt) t0 dt x0 N (fun i => x i + s • a i) (fun i => u i + s • b i) where
  init := by rw [ha.init, hx.init]; simp
  dyn i hi := by
    rw [hx.dyn i hi, ha.step i hi]
    simp only [fmpcOf, mulVec_add, mulVec_smul, smul_add]
    abel
  ineq _ _ j := j.elim0

theorem sub_lin {x y : ℕ → Vec n ℝ} {u z : (i : ℕ) → Vec (md (timeAt t0 dt i)) ℝ} (hx : FeasibleTraj (fmpcOf p dt) t0 dt x0 N x u)
    (hy : FeasibleTraj (fmpcOf p dt) t0 dt x0 N y z) : LinTraj p t0 dt N (fun i => y i - x i) (fun i => z i - u i) where
  init := by rw [hx.init, hy.init, sub_self]
  step i hi := by
    rw [hx.dyn i hi, hy.dyn i hi]
    simp only [fmpcOf, mulVec_sub]
    abel

/-- Costs of the differences with first input `w`. -/
def growthSet (p : LQProblem n md) (t0 dt : ℝ) (N : ℕ) (w : Vec (md (timeAt t0 dt 0)) ℝ) : Set ℝ :=
  {c | ∃ a b, LinTraj p t0 dt N a b ∧ b 0 = w ∧ quadCost p t0 dt N a b = c}

theorem growthSet_nonempty (w : Vec (md (timeAt t0 dt 0)) ℝ) : (growthSet p t0 dt N w).Nonempty := by
  let b : (i : ℕ) → Vec (md (timeAt t0 dt i)) ℝ := fun i => match i with
    | 0 => w
    | _ + 1 => 0
  let a : ℕ → Vec n ℝ := fun i => Nat.rec 0 (fun i x => p.A (timeAt t0 dt i) *ᵥ x + p.B (timeAt t0 dt i) *ᵥ b i) i
  exact ⟨_, a, b, ⟨rfl, fun _ _ => rfl⟩, rfl, rfl⟩

theorem growthSet_bdd (hp : p.Convex) (w : Vec (md (timeAt t0 dt 0)) ℝ) : BddBelow (growthSet p t0 dt N w) := by
  refine ⟨0, ?_⟩
  rintro _ ⟨a, b, -, -, rfl⟩
  exact quadCost_nonneg hp a b

theorem growth_le (hp : p.Convex) {s : ℝ} (w : Vec (md (timeAt t0 dt 0)) ℝ) (hs : s ≠ 0) :
    sInf (growthSet p t0 dt N (s • w)) ≤ s ^ 2 * sInf (growthSet p t0 dt N w) := by
  have h : sInf (growthSet p t0 dt N (s • w)) / s ^ 2 ≤ sInf (growthSet p t0 dt N w) := by
    refine le_csInf (growthSet_nonempty w) ?_
    rintro _ ⟨a, b, hl, hb, rfl⟩
    rw [div_le_iff₀ (by positivity), mul_comm, ← quadCost_smul]
    refine csInf_le (growthSet_bdd hp _) ⟨_, _, ⟨?_, fun i hi => ?_⟩, ?_, rfl⟩
    · rw [hl.init, smul_zero]
    · rw [hl.step i hi, smul_add, mulVec_smul, mulVec_smul]
    · rw [hb]
  rwa [div_le_iff₀ (by positivity), mul_comm] at h

theorem growth_smul (hp : p.Convex) {s : ℝ} (w : Vec (md (timeAt t0 dt 0)) ℝ) (hs : s ≠ 0) :
    sInf (growthSet p t0 dt N (s • w)) = s ^ 2 * sInf (growthSet p t0 dt N w) := by
  refine le_antisymm (growth_le hp w hs) ?_
  have h := growth_le (N := N) (s := s⁻¹) hp (s • w) (inv_ne_zero hs)
  rw [smul_smul, inv_mul_cancel₀ hs, one_smul] at h
  have h2 := mul_le_mul_of_nonneg_left h (sq_nonneg s)
  rwa [← mul_assoc, ← mul_pow, mul_inv_cancel₀ hs, one_pow, one_mul] at h2

theorem growth_ge (hp : p.Convex) (hN : 0 < N) (w : Vec (md (timeAt t0 dt 0)) ℝ) :
    1 / 2 * (w ⬝ᵥ p.R (timeAt t0 dt 0) *ᵥ w) ≤ sInf (growthSet p t0 dt N w) := by
  refine le_csInf (growthSet_nonempty w) ?_
  rintro _ ⟨a, b, hl, rfl, rfl⟩
  exact quadCost_ge hp hN hl.init

theorem growth_zero (hp : p.Convex) : sInf (growthSet p t0 dt N 0) = 0 := by
  refine le_antisymm (csInf_le (growthSet_bdd hp 0) ⟨fun _ => 0, fun _ => 0, ⟨rfl, fun i _ => by simp⟩, rfl, by simp [quadCost, quadStage]⟩) ?_
  refine le_csInf (growthSet_nonempty 0) ?_
  rintro _ ⟨a, b, -, -, rfl⟩
  exact quadCost_nonneg hp a b

theorem growth_zero_iff (hp : p.Convex) (hN : 0 < N) (w : Vec (md (timeAt t0 dt 0)) ℝ) : sInf (growthSet p t0 dt N w) = 0 ↔ w = 0 := by
  constructor
  · intro h
    by_contra hw
    have h1 := growth_ge (t0 := t0) (dt := dt) hp hN w
    have h2 := (hp.input (timeAt t0 dt 0)).dotProduct_mulVec_pos hw
    simp only [star_trivial] at h2
    linarith
  · rintro rfl
    exact growth_zero hp

/-- Around a cheapest trajectory the cost of the best continuation grows with the growth function of the first input. -/
theorem glb_with (hp : p.Convex) (hdt : 0 < dt) {x : ℕ → Vec n ℝ} {u : (i : ℕ) → Vec (md (timeAt t0 dt i)) ℝ}
    (hx : FeasibleTraj (fmpcOf p dt) t0 dt x0 N x u)
    (hmin : ∀ y z, FeasibleTraj (fmpcOf p dt) t0 dt x0 N y z → trajCost (fmpcOf p dt) t0 dt N x u ≤ trajCost (fmpcOf p dt) t0 dt N y z)
    (v : Vec (md (timeAt t0 dt 0)) ℝ) :
    IsGLB (costsWith (fmpcOf p dt) t0 dt N x0 v) (trajCost (fmpcOf p dt) t0 dt N x u + sInf (growthSet p t0 dt N (v - u 0))) := by
  have hexp : ∀ {a : ℕ → Vec n ℝ} {b : (i : ℕ) → Vec (md (timeAt t0 dt i)) ℝ}, LinTraj p t0 dt N a b →
      trajCost (fmpcOf p dt) t0 dt N (fun i => x i + (1 : ℝ) • a i) (fun i => u i + (1 : ℝ) • b i) =
        trajCost (fmpcOf p dt) t0 dt N x u + quadCost p t0 dt N a b := by
    intro a b hab
    obtain ⟨l, hl⟩ := cost_line (p := p) (t0 := t0) (N := N) hdt x a u b
    have h0 : l = 0 := by
      have hq : ∀ s : ℝ, 0 ≤ s * l + s ^ 2 * quadCost p t0 dt N a b := by
        intro s
        have := hmin _ _ (add_lin hx hab s)
        rw [hl s] at this
        linarith
      set q := quadCost p t0 dt N a b with hqd
      have hq0 : 0 ≤ q := quadCost_nonneg hp a b
      have h1 := hq (-l / (q + 1))
      have h2 : -l / (q + 1) * l + (-l / (q + 1)) ^ 2 * q = -(l ^ 2 / (q + 1) ^ 2) := by
        field_simp
        ring
      rw [h2] at h1
      have h3 : 0 ≤ l ^ 2 / (q + 1) ^ 2 := by positivity
      have h4 : l ^ 2 / (q + 1) ^ 2 = 0 := by linarith
      have h5 : (q + 1) ^ 2 ≠ 0 := by positivity
      have := (div_eq_zero_iff.1 h4).resolve_right h5
      exact pow_eq_zero_iff (two_ne_zero) |>.1 this
    rw [hl 1, h0]
    ring
  constructor
  · rintro _ ⟨y, z, hy, rfl, rfl⟩
    have h1 := hexp (sub_lin hx hy)
    simp only [one_smul, add_sub_cancel] at h1
    rw [h1]
    exact add_le_add le_rfl (csInf_le (growthSet_bdd hp _) ⟨_, _, sub_lin hx hy, rfl, rfl⟩)
  · intro c hc
    have : c - trajCost (fmpcOf p dt) t0 dt N x u ≤ sInf (growthSet p t0 dt N (v - u 0)) := by
      refine le_csInf (growthSet_nonempty _) ?_
      rintro _ ⟨a, b, hab, hb, rfl⟩
      have h1 := hc ⟨_, _, add_lin hx hab 1, by rw [hb, one_smul, add_sub_cancel], rfl⟩
      rw [hexp hab] at h1
      linarith
    linarith

/-! ## The policy of the iteration -/

variable {L : FMPC.GainSolver ℝ} {cfg : FMPC.Config ℝ}

/-- One iteration of FMPC without inequalities: its gain and plan give the first input of a cheapest trajectory from every state. -/
theorem policy_optimal (hL : FMPC.ExactGain L) (hp : p.Convex) (hdt : 0 < dt) (hls : cfg.enableLineSearch = false) {iter : ℕ}
    {w w1 : FMPC.Solver n (fun i => md (timeAt t0 dt i)) (fun i => (fun _ : ℝ => 0) (timeAt t0 dt i)) ℝ}
    (h : FMPC.procOnce L N cfg (FMPC.stagesOf (fmpcOf p dt) t0 dt N) x0 iter w = .ok (w1, .iterationContinued)) :
    w1.var.x 0 = x0 ∧ ∀ x', ∃ y z, FeasibleTraj (fmpcOf p dt) t0 dt x' N y z ∧ z 0 = w1.var.u 0 + (w1.coeff 0).K *ᵥ (x' - x0) ∧
      ∀ y' z', FeasibleTraj (fmpcOf p dt) t0 dt x' N y' z' →
        trajCost (fmpcOf p dt) t0 dt N y z ≤ trajCost (fmpcOf p dt) t0 dt N y' z' := by
  set S := FMPC.stagesOf (fmpcOf p dt) t0 dt N with hS
  have hQ : FMPC.IsLQ S (dataOf p t0 dt N) := fmpcOf_isLQ N
  have hcv := hQ.convex (dataOf_convex hp hdt N)
  obtain ⟨e, he, w2, hb, hco, hv⟩ := FMPC.full_step hQ.none hls h
  have hx : w1.var.x 0 = x0 := by
    rw [hv]
    simp [FMPC.applyStep, FMPC.forwardDelta, FMPC.deltaX]
  refine ⟨hx, fun x' => ?_⟩
  obtain ⟨w2', w3, h1, h2, h3⟩ := FMPC.C30_convex (cfg := cfg) (x0 := x') hL (S := S) (show 0 < S.dt from hdt)
    (w := FMPC.traced N x0 iter (FMPC.prepared N S w e)) (FMPC.pos_of_none hQ.none _) (hcv.model w e iter)
  rw [hb] at h1
  obtain rfl : w2 = w2' := (Prod.ext_iff.1 h1).2
  rw [FMPC.forwardPass_true] at h2
  have h2' := (Prod.ext_iff.1 h2).2
  dsimp only at h2'
  have g1 := FMPC.backwardPass_frame (L := L) (N := N) (cfg := cfg) (S := S) (FMPC.traced N x0 iter (FMPC.prepared N S w e))
  rw [hb] at g1
  have hdel : w3.delta = FMPC.forwardDelta N e x' w.var w2.coeff w2.term := by
    rw [← h2']
    dsimp only
    rw [g1.1, g1.2.1]
    rfl
  let w' : FMPC.Solver n (fun i => md (timeAt t0 dt i)) (fun i => (fun _ : ℝ => 0) (timeAt t0 dt i)) ℝ :=
    { w with var := FMPC.applyStep w.var w3.delta 1 1 }
  have hk := FMPC.lq_kkt_zero (x0 := x') hQ (w := w') h3 rfl e
  have hk0 := (FMPC.kktOf_prepared (P := fmpcOf p dt) (x0 := x') (dt := dt) (t0 := t0) N w' e 0).1 (le_of_eq hk)
  obtain ⟨k0, -, ks⟩ := hk0.each
  have hD : FMPC.DerivsAt (fmpcOf p dt) t0 dt N w'.var (fun i => (FMPC.prepared N S w' e).coeff i |>.F)
      (fun i => (FMPC.prepared N S w' e).coeff i |>.G) (fun i => (FMPC.prepared N S w' e).coeff i |>.L)
      (FMPC.prepared N S w' e).term.V := by
    refine ⟨fun i hi => ?_, ⟨w'.term.V, rfl⟩⟩
    have hci : (FMPC.prepared N S w' e).coeff i = FMPC.calcCoeff S w'.var i (w'.coeff i) := if_pos hi
    dsimp only
    rw [hci]
    exact ⟨⟨(w'.coeff i).F, rfl⟩, ⟨(w'.coeff i).G, rfl⟩, ⟨(w'.coeff i).L, rfl⟩⟩
  refine ⟨w'.var.x, w'.var.u, ⟨?_, fun i hi => ?_, fun i hi j => j.elim0⟩, ?_, fun y' z' hy => ?_⟩
  · funext j
    have := abs_nonpos_iff.1 (k0 j)
    linarith
  · funext j
    have := abs_nonpos_iff.1 ((ks i hi).1 j)
    linarith
  · show (FMPC.applyStep w.var w3.delta 1 1).u 0 = _
    rw [hdel, hv, hco]
    simp only [FMPC.applyStep, FMPC.forwardDelta, FMPC.deltaX, smulv_real, mulVec_real, one_smul, mulVec_sub]
    abel
  · have := FMPC.kkt_gap (fmpcOf_convex hp hdt) hdt.le hD hk0 (fun i hi j => j.elim0) hy
    rwa [zero_mul, add_zero] at this

end Nmpc.Agree
