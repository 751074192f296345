import Verif.DDP.LQProps
import Mathlib.Algebra.QuadraticDiscriminant

/-!
# The full step with zero regularisation as a Newton step (affine dynamics, general costs, exact arithmetic)
-/

namespace Nmpc.DDP

set_option linter.unusedSectionVars false

open Matrix Finset

section One
variable {n k : ℕ}

/-- Directional derivative at `(dx, du)` along `(ex, eu)` of the quadratic model. -/
noncomputable def LDeriv.slope (L : LDeriv n k ℝ) (dx : Vec n ℝ) (du : Vec k ℝ) (ex : Vec n ℝ) (eu : Vec k ℝ) : ℝ :=
  (L.Lx + L.Lxx *ᵥ dx + L.Lxu *ᵥ du) ⬝ᵥ ex + (L.Lu + L.Lxuᵀ *ᵥ dx + L.Luu *ᵥ du) ⬝ᵥ eu

/-- The quadratic form of the second derivatives. -/
noncomputable def LDeriv.quad (L : LDeriv n k ℝ) (ex : Vec n ℝ) (eu : Vec k ℝ) : ℝ :=
  ex ⬝ᵥ L.Lxx *ᵥ ex + 2 * (ex ⬝ᵥ L.Lxu *ᵥ eu) + eu ⬝ᵥ L.Luu *ᵥ eu

noncomputable def VDeriv.slope (V : VDeriv n ℝ) (dx ex : Vec n ℝ) : ℝ := (V.Vx + V.Vxx *ᵥ dx) ⬝ᵥ ex

noncomputable def VDeriv.quad (V : VDeriv n ℝ) (ex : Vec n ℝ) : ℝ := ex ⬝ᵥ V.Vxx *ᵥ ex

theorem LDeriv.val_add (L : LDeriv n k ℝ) (hx : L.Lxx.IsSymm) (hu : L.Luu.IsSymm) (dx : Vec n ℝ) (du : Vec k ℝ)
    (ex : Vec n ℝ) (eu : Vec k ℝ) :
    L.val (dx + ex) (du + eu) = L.val dx du + L.slope dx du ex eu + 1 / 2 * L.quad ex eu := by
  simp only [LDeriv.val, LDeriv.slope, LDeriv.quad, mulVec_add, dotProduct_add, add_dotProduct, tmul_dot]
  rw [symm_dot hx ex dx, symm_dot hu eu du, dotProduct_comm (L.Lxx *ᵥ dx) ex, symm_dot hx ex dx,
    dotProduct_comm (L.Luu *ᵥ du) eu, symm_dot hu eu du, dotProduct_comm (L.Lxu *ᵥ du) ex]
  ring

theorem LDeriv.slope_add (L : LDeriv n k ℝ) (dx : Vec n ℝ) (du : Vec k ℝ)
    (ex : Vec n ℝ) (eu : Vec k ℝ) :
    L.slope (dx + ex) (du + eu) ex eu = L.slope dx du ex eu + L.quad ex eu := by
  simp only [LDeriv.slope, LDeriv.quad, mulVec_add, add_dotProduct, tmul_dot]
  rw [dotProduct_comm (L.Lxx *ᵥ ex) ex, dotProduct_comm (L.Luu *ᵥ eu) eu, dotProduct_comm (L.Lxu *ᵥ eu) ex]
  ring

theorem LDeriv.slope_neg (L : LDeriv n k ℝ) (dx : Vec n ℝ) (du : Vec k ℝ) (ex : Vec n ℝ) (eu : Vec k ℝ) :
    L.slope dx du (-ex) (-eu) = -L.slope dx du ex eu := by
  simp only [LDeriv.slope, dotProduct_neg]; ring

theorem LDeriv.quad_neg (L : LDeriv n k ℝ) (ex : Vec n ℝ) (eu : Vec k ℝ) : L.quad (-ex) (-eu) = L.quad ex eu := by
  simp only [LDeriv.quad, dotProduct_neg, mulVec_neg, neg_dotProduct, neg_neg]

theorem VDeriv.val_add (V : VDeriv n ℝ) (hx : V.Vxx.IsSymm) (dx ex : Vec n ℝ) :
    V.val (dx + ex) = V.val dx + V.slope dx ex + 1 / 2 * V.quad ex := by
  simp only [VDeriv.val, VDeriv.slope, VDeriv.quad, mulVec_add, dotProduct_add, add_dotProduct]
  rw [symm_dot hx ex dx, dotProduct_comm (V.Vxx *ᵥ dx) ex, symm_dot hx ex dx]
  ring

theorem VDeriv.slope_add (V : VDeriv n ℝ) (dx ex : Vec n ℝ) :
    V.slope (dx + ex) ex = V.slope dx ex + V.quad ex := by
  simp only [VDeriv.slope, VDeriv.quad, mulVec_add, add_dotProduct]
  rw [dotProduct_comm (V.Vxx *ᵥ ex) ex]
  ring

theorem VDeriv.slope_neg (V : VDeriv n ℝ) (dx ex : Vec n ℝ) : V.slope dx (-ex) = -V.slope dx ex := by
  simp only [VDeriv.slope, dotProduct_neg]

theorem VDeriv.quad_neg (V : VDeriv n ℝ) (ex : Vec n ℝ) : V.quad (-ex) = V.quad ex := by
  simp only [VDeriv.quad, dotProduct_neg, mulVec_neg, neg_dotProduct, neg_neg]

end One

variable {n : ℕ} {m : ℕ → ℕ} {L : LLT ℝ} {N : ℕ} {cfg : Config ℝ} {S : Stages n m ℝ} {x0 : Vec n ℝ}
  {c : Ctrl n m ℝ} {d : Derivs n m ℝ} {g : Gains n m ℝ} {V : ℕ → VDeriv n ℝ}

/-- Deviations of states and inputs. -/
structure Dev (n : ℕ) (m : ℕ → ℕ) where
  x : ℕ → Vec n ℝ
  u : (i : ℕ) → Vec (m i) ℝ

/-- The deviation follows the linearised dynamics from the same initial state. -/
structure IsVar (N : ℕ) (d : Derivs n m ℝ) (e : Dev n m) : Prop where
  start : e.x 0 = 0
  step : ∀ j < N, e.x (j + 1) = (d.F j).Fx *ᵥ e.x j + (d.F j).Fu *ᵥ e.u j

def Dev.add (a b : Dev n m) : Dev n m := ⟨fun j => a.x j + b.x j, fun j => a.u j + b.u j⟩
def Dev.neg (a : Dev n m) : Dev n m := ⟨fun j => -a.x j, fun j => -a.u j⟩

theorem IsVar.add {a b : Dev n m} (ha : IsVar N d a) (hb : IsVar N d b) : IsVar N d (a.add b) where
  start := by simp [Dev.add, ha.start, hb.start]
  step j hj := by
    simp only [Dev.add, mulVec_add]
    rw [ha.step j hj, hb.step j hj]; abel

theorem IsVar.neg {a : Dev n m} (ha : IsVar N d a) : IsVar N d a.neg where
  start := by simp [Dev.neg, ha.start]
  step j hj := by
    simp only [Dev.neg, mulVec_neg]
    rw [ha.step j hj]; abel

/-- Sum of the quadratic models. -/
noncomputable def mdl (N : ℕ) (d : Derivs n m ℝ) (e : Dev n m) : ℝ :=
  ∑ j ∈ range N, (d.L j).val (e.x j) (e.u j) + d.V.val (e.x N)

noncomputable def mdlSlope (N : ℕ) (d : Derivs n m ℝ) (a e : Dev n m) : ℝ :=
  ∑ j ∈ range N, (d.L j).slope (a.x j) (a.u j) (e.x j) (e.u j) + d.V.slope (a.x N) (e.x N)

noncomputable def mdlQuad (N : ℕ) (d : Derivs n m ℝ) (e : Dev n m) : ℝ :=
  ∑ j ∈ range N, (d.L j).quad (e.x j) (e.u j) + d.V.quad (e.x N)

/-- The dynamics are affine with derivatives `d`, and the second derivatives in `d` are symmetric. -/
structure AffModel (N : ℕ) (S : Stages n m ℝ) (c : Ctrl n m ℝ) (d : Derivs n m ℝ) : Prop where
  dyn : ∀ i < N, ∀ dx du, S.f i (c.x i + dx) (c.u i + du) = S.f i (c.x i) (c.u i) + ((d.F i).Fx *ᵥ dx + (d.F i).Fu *ᵥ du)
  symmX : ∀ i < N, (d.L i).Lxx.IsSymm
  symmU : ∀ i < N, (d.L i).Luu.IsSymm
  symmV : d.V.Vxx.IsSymm

theorem mdl_add (hA : AffModel N S c d) (a e : Dev n m) :
    mdl N d (a.add e) = mdl N d a + mdlSlope N d a e + 1 / 2 * mdlQuad N d e := by
  simp only [mdl, mdlSlope, mdlQuad, Dev.add]
  rw [VDeriv.val_add _ hA.symmV, mul_add, mul_sum,
    sum_congr rfl fun j hj => LDeriv.val_add _ (hA.symmX j (mem_range.1 hj)) (hA.symmU j (mem_range.1 hj)) _ _ _ _,
    sum_add_distrib, sum_add_distrib]
  ring

theorem mdlSlope_add (a e : Dev n m) :
    mdlSlope N d (a.add e) e = mdlSlope N d a e + mdlQuad N d e := by
  simp only [mdlSlope, mdlQuad, Dev.add]
  rw [VDeriv.slope_add, sum_congr rfl fun j _ => LDeriv.slope_add _ _ _ _ _, sum_add_distrib]
  ring

theorem mdlSlope_neg (a e : Dev n m) : mdlSlope N d a e.neg = -mdlSlope N d a e := by
  simp only [mdlSlope, Dev.neg, LDeriv.slope_neg, VDeriv.slope_neg, sum_neg_distrib]
  ring

theorem mdlQuad_neg (e : Dev n m) : mdlQuad N d e.neg = mdlQuad N d e := by
  simp only [mdlQuad, Dev.neg, LDeriv.quad_neg, VDeriv.quad_neg]

/-- The stages with the costs replaced by their quadratic models along `c`. -/
noncomputable def quadStages (N : ℕ) (S : Stages n m ℝ) (c : Ctrl n m ℝ) (d : Derivs n m ℝ) : Stages n m ℝ :=
  { S with
    l := fun i x u => c.cost i + (d.L i).val (x - c.x i) (u - c.u i)
    φ := fun x => c.cost N + d.V.val (x - c.x N) }

theorem LDeriv.val_zero {k : ℕ} (L : LDeriv n k ℝ) : L.val 0 0 = 0 := by simp [LDeriv.val]
theorem VDeriv.val_zero (V : VDeriv n ℝ) : V.val 0 = 0 := by simp [VDeriv.val]

theorem quadStages_exact (hA : AffModel N S c d) : ExactModel N (quadStages N S c d) c d where
  dyn := hA.dyn
  run i hi dx du := by simp [quadStages, LDeriv.val_zero]
  term dx := by simp [quadStages, VDeriv.val_zero]
  symmL := hA.symmU
  symmV := hA.symmV

/-- The difference of two trajectories. -/
def devOf (c c' : Ctrl n m ℝ) : Dev n m := ⟨fun j => c'.x j - c.x j, fun j => c'.u j - c.u j⟩

theorem devOf_isVar (hA : AffModel N S c d) {c' : Ctrl n m ℝ} {c'' : Ctrl n m ℝ} (h' : Consistent N S x0 c')
    (h'' : Consistent N S x0 c'') : IsVar N d (devOf c' c'') where
  start := by simp [devOf, h'.start, h''.start]
  step j hj := by
    have hx : ∀ x u, S.f j x u = S.f j (c.x j) (c.u j) + ((d.F j).Fx *ᵥ (x - c.x j) + (d.F j).Fu *ᵥ (u - c.u j)) := by
      intro x u
      rw [← hA.dyn j hj]
      simp
    simp only [devOf]
    rw [h''.step j hj, h'.step j hj, hx (c''.x j), hx (c'.x j)]
    simp only [mulVec_sub]
    abel

/-- The quadratic model in terms of the gains of a backward pass with zero regularisation. -/
theorem mdl_newton (hL : L.Exact) (hw : cfg.withConstraint = false) (hA : AffModel N S c d)
    (hC : Chain L N cfg S c d 0 N V g) (hV : V N = d.V) (hc : Consistent N S x0 c) {e : Dev n m} (he : IsVar N d e) :
    mdl N d e = -gain N cfg d V g +
      1 / 2 * ∑ j ∈ range N, (e.u j - g.k j - g.K j *ᵥ e.x j) ⬝ᵥ (Qat cfg 0 d V j).Quu *ᵥ (e.u j - g.k j - g.K j *ᵥ e.x j) := by
  let S' := quadStages N S c d
  have hC' : Chain L N cfg S' c d 0 N V g := ⟨hC.value, hC.gain⟩
  have hc' : Consistent N S' x0 c := ⟨hc.start, hc.step, fun i hi => by simp [S', quadStages, LDeriv.val_zero],
    by simp [S', quadStages, VDeriv.val_zero]⟩
  let c' : Ctrl n m ℝ :=
    { x := fun j => c.x j + e.x j, u := fun j => c.u j + e.u j,
      cost := fun j => if j < N then c.cost j + (d.L j).val (e.x j) (e.u j) else c.cost j + d.V.val (e.x j) }
  have hcons : Consistent N S' x0 c' := by
    refine ⟨by simp [c', he.start, hc.start], ?_, ?_, ?_⟩
    · intro i hi
      show c.x (i + 1) + e.x (i + 1) = S.f i (c.x i + e.x i) (c.u i + e.u i)
      rw [hA.dyn i hi, he.step i hi, hc.step i hi]
    · intro i hi
      simp [c', hi, S', quadStages]
    · simp [c', S', quadStages]
  have := lq_newton hL hw (quadStages_exact hA) hC' hV hc' hcons
  have hp : ∀ j, polErr c c' g j = e.u j - g.k j - g.K j *ᵥ e.x j := by
    intro j; simp [polErr, c']
  simp only [hp] at this
  rw [gain, ← this, totalCost_real, totalCost_real, mdl]
  have h1 : ∀ j ∈ range N, c'.cost j = c.cost j + (d.L j).val (e.x j) (e.u j) := fun j hj => if_pos (mem_range.1 hj)
  have h2 : c'.cost N = c.cost N + d.V.val (e.x N) := if_neg (lt_irrefl _)
  rw [sum_congr rfl h1, h2, sum_add_distrib]
  ring

/-- The candidate of the full step minimises the quadratic model: what this says about its deviation. -/
theorem newton_facts (hL : L.Exact) (hw : cfg.withConstraint = false) (hA : AffModel N S c d)
    (hC : Chain L N cfg S c d 0 N V g) (hV : V N = d.V) (hc : Consistent N S x0 c) :
    (∀ e, IsVar N d e → mdlSlope N d (devOf c (forwardPass N S c g 1)) e = 0) ∧
    mdl N d (devOf c (forwardPass N S c g 1)) = -gain N cfg d V g ∧
    gain N cfg d V g = 1 / 2 * mdlQuad N d (devOf c (forwardPass N S c g 1)) := by
  set dn := devOf c (forwardPass N S c g 1) with hdn
  have hF : Consistent N S x0 (forwardPass N S c g 1) := forwardPass_consistent hc.start
  have hv : IsVar N d dn := devOf_isVar hA hc hF
  have hp : ∀ j, dn.u j - g.k j - g.K j *ᵥ dn.x j = 0 := by
    intro j
    have := polErr_forwardPass (N := N) (S := S) c g 1 j
    rw [sub_self, zero_smul] at this
    exact this
  have h0 : mdl N d dn = -gain N cfg d V g := by
    rw [mdl_newton hL hw hA hC hV hc hv]
    simp [hp]
  have hs : ∀ e, IsVar N d e → mdlSlope N d dn e = 0 := by
    intro e he
    have h1 := mdl_newton hL hw hA hC hV hc (hv.add he)
    have h2 := mdl_newton hL hw hA hC hV hc (hv.add he.neg)
    rw [mdl_add hA] at h1 h2
    rw [mdlSlope_neg, mdlQuad_neg] at h2
    have e1 : ∀ j, (dn.add e).u j - g.k j - g.K j *ᵥ (dn.add e).x j = e.u j - g.K j *ᵥ e.x j := by
      intro j
      have := hp j
      simp only [Dev.add, mulVec_add]
      calc _ = (dn.u j - g.k j - g.K j *ᵥ dn.x j) + (e.u j - g.K j *ᵥ e.x j) := by abel
        _ = _ := by rw [this, zero_add]
    have e2 : ∀ j, (dn.add e.neg).u j - g.k j - g.K j *ᵥ (dn.add e.neg).x j = -(e.u j - g.K j *ᵥ e.x j) := by
      intro j
      have := hp j
      simp only [Dev.add, Dev.neg, mulVec_add, mulVec_neg]
      calc _ = (dn.u j - g.k j - g.K j *ᵥ dn.x j) + -(e.u j - g.K j *ᵥ e.x j) := by abel
        _ = _ := by rw [this, zero_add]
    simp only [e1] at h1
    simp only [e2, mulVec_neg, dotProduct_neg, neg_dotProduct, neg_neg] at h2
    linarith
  refine ⟨hs, h0, ?_⟩
  have h3 := mdl_add hA dn dn.neg
  rw [mdlSlope_neg, mdlQuad_neg, hs dn hv, h0] at h3
  have h4 : mdl N d (dn.add dn.neg) = 0 := by simp [mdl, Dev.add, Dev.neg, LDeriv.val_zero, VDeriv.val_zero]
  rw [h4] at h3
  linarith

/-! ## Distances -/

/-- Sum of the squares of a deviation. -/
noncomputable def devSq (N : ℕ) (e : Dev n m) : ℝ := ∑ j ∈ range N, (e.x j ⬝ᵥ e.x j + e.u j ⬝ᵥ e.u j) + e.x N ⬝ᵥ e.x N

theorem dot_self_nonneg' {k : ℕ} (v : Vec k ℝ) : 0 ≤ v ⬝ᵥ v := by
  simp only [dotProduct]; exact sum_nonneg fun i _ => mul_self_nonneg _

theorem devSq_nonneg (e : Dev n m) : 0 ≤ devSq N e :=
  add_nonneg (sum_nonneg fun _ _ => add_nonneg (dot_self_nonneg' _) (dot_self_nonneg' _)) (dot_self_nonneg' _)

theorem devSq_stage (e : Dev n m) {j : ℕ} (hj : j < N) : e.x j ⬝ᵥ e.x j + e.u j ⬝ᵥ e.u j ≤ devSq N e := by
  have h := single_le_sum (f := fun j => e.x j ⬝ᵥ e.x j + e.u j ⬝ᵥ e.u j)
    (fun i _ => add_nonneg (dot_self_nonneg' (e.x i)) (dot_self_nonneg' (e.u i))) (mem_range.2 hj)
  have := dot_self_nonneg' (e.x N)
  unfold devSq
  linarith

theorem devSq_term (e : Dev n m) : e.x N ⬝ᵥ e.x N ≤ devSq N e := by
  have := sum_nonneg (s := range N) (f := fun j => e.x j ⬝ᵥ e.x j + e.u j ⬝ᵥ e.u j)
    (fun i _ => add_nonneg (dot_self_nonneg' (e.x i)) (dot_self_nonneg' (e.u i)))
  unfold devSq
  linarith

theorem devSq_neg (e : Dev n m) : devSq N e.neg = devSq N e := by simp [devSq, Dev.neg]

/-- A Cauchy-Schwarz inequality for scalar products of a sequence of squares. -/
theorem devSq_add_le (a b : Dev n m) : √(devSq N (a.add b)) ≤ √(devSq N a) + √(devSq N b) := by
  have key : ∀ t : ℝ, 0 ≤ devSq N a + 2 * t * (∑ j ∈ range N, (a.x j ⬝ᵥ b.x j + a.u j ⬝ᵥ b.u j) + a.x N ⬝ᵥ b.x N)
      + t ^ 2 * devSq N b := by
    intro t
    have h := devSq_nonneg (N := N) (a.add (⟨fun j => t • b.x j, fun j => t • b.u j⟩ : Dev n m))
    refine h.trans (le_of_eq ?_)
    simp only [devSq, Dev.add, add_dotProduct, dotProduct_add, smul_dotProduct, dotProduct_smul, smul_eq_mul,
      sum_add_distrib, ← mul_sum, mul_add]
    have e1 : ∀ j, b.x j ⬝ᵥ a.x j = a.x j ⬝ᵥ b.x j := fun j => dotProduct_comm _ _
    have e2 : ∀ j, b.u j ⬝ᵥ a.u j = a.u j ⬝ᵥ b.u j := fun j => dotProduct_comm _ _
    simp only [e1, e2]
    ring
  set p := ∑ j ∈ range N, (a.x j ⬝ᵥ b.x j + a.u j ⬝ᵥ b.u j) + a.x N ⬝ᵥ b.x N with hp
  have hcs : p ≤ √(devSq N a) * √(devSq N b) := by
    rw [← Real.sqrt_mul (devSq_nonneg a)]
    refine Real.le_sqrt_of_sq_le ?_
    have h := discrim_le_zero (a := devSq N b) (b := 2 * p) (c := devSq N a) (fun t => by
      have := key t; nlinarith)
    rw [discrim] at h
    nlinarith
  have hexp : devSq N (a.add b) = devSq N a + 2 * p + devSq N b := by
    rw [hp]
    simp only [devSq, Dev.add, add_dotProduct, dotProduct_add, sum_add_distrib, mul_add]
    have e1 : ∀ j, b.x j ⬝ᵥ a.x j = a.x j ⬝ᵥ b.x j := fun j => dotProduct_comm _ _
    have e2 : ∀ j, b.u j ⬝ᵥ a.u j = a.u j ⬝ᵥ b.u j := fun j => dotProduct_comm _ _
    simp only [e1, e2]
    ring
  refine Real.sqrt_le_iff.2 ⟨by positivity, ?_⟩
  rw [hexp, add_sq, Real.sq_sqrt (devSq_nonneg a), Real.sq_sqrt (devSq_nonneg b)]
  nlinarith

/-! ## One iteration near a solution -/

/-- What is used about the problem in the ball of radius `r` around the trajectory `cs`. -/
structure NewtonRegion (N : ℕ) (cfg : Config ℝ) (S : Stages n m ℝ) (x0 : Vec n ℝ) (cs : Ctrl n m ℝ) (r ρ M : ℝ) : Prop where
  sol : Consistent N S x0 cs
  aff : ∀ c b, Consistent N S x0 c → √(devSq N (devOf cs c)) ≤ r → AffModel N S c (calcDerivs N cfg S c b)
  convex : ∀ c b, Consistent N S x0 c → √(devSq N (devOf cs c)) ≤ r → ConvexModel N (calcDerivs N cfg S c b)
  curv : ∀ c b, Consistent N S x0 c → √(devSq N (devOf cs c)) ≤ r → ∀ e, IsVar N (calcDerivs N cfg S c b) e →
    ρ * devSq N e ≤ mdlQuad N (calcDerivs N cfg S c b) e
  grad : ∀ c b, Consistent N S x0 c → √(devSq N (devOf cs c)) ≤ r → ∀ e, IsVar N (calcDerivs N cfg S c b) e →
    |mdlSlope N (calcDerivs N cfg S c b) (devOf c cs) e| ≤ M / 2 * devSq N (devOf cs c) * √(devSq N e)
  cost : ∀ c b c', Consistent N S x0 c → √(devSq N (devOf cs c)) ≤ r → Consistent N S x0 c' →
    √(devSq N (devOf cs c')) ≤ r →
    |totalCost N c' - totalCost N c - mdl N (calcDerivs N cfg S c b) (devOf c c')| ≤ M / 6 * √(devSq N (devOf c c')) ^ 3

theorem devOf_add (a b c : Ctrl n m ℝ) : devOf a c = (devOf a b).add (devOf b c) := by
  simp only [devOf, Dev.add, sub_add_sub_cancel']

theorem devOf_neg (a b : Ctrl n m ℝ) : devOf a b = (devOf b a).neg := by
  simp only [devOf, Dev.neg, neg_sub]

theorem devSq_comm (a b : Ctrl n m ℝ) : devSq N (devOf a b) = devSq N (devOf b a) := by
  rw [devOf_neg, devSq_neg]

section Region
variable {cs : Ctrl n m ℝ} {r ρ M : ℝ}

/-- The error is squared. -/
theorem newton_contract (hR : NewtonRegion N cfg S x0 cs r ρ M) (hL : L.Exact) (hw : cfg.withConstraint = false)
    (hM : 0 ≤ M) {b : Derivs n m ℝ} (hc : Consistent N S x0 c) (hr : √(devSq N (devOf cs c)) ≤ r)
    (hd : d = calcDerivs N cfg S c b) (hC : Chain L N cfg S c d 0 N V g) (hV : V N = d.V) :
    ρ * √(devSq N (devOf cs (forwardPass N S c g 1))) ≤ M / 2 * devSq N (devOf cs c) := by
  subst hd
  have hA := hR.aff c b hc hr
  have hF : Consistent N S x0 (forwardPass N S c g 1) := forwardPass_consistent hc.start
  set e := devOf cs (forwardPass N S c g 1) with he
  have hv : IsVar N (calcDerivs N cfg S c b) e := devOf_isVar hA hR.sol hF
  have h1 := (newton_facts hL hw hA hC hV hc).1 e hv
  rw [devOf_add c cs, ← he, mdlSlope_add] at h1
  have h2 := hR.curv c b hc hr e hv
  have h3 := hR.grad c b hc hr e hv
  have h4 : mdlQuad N (calcDerivs N cfg S c b) e ≤ M / 2 * devSq N (devOf cs c) * √(devSq N e) := by
    have := neg_le_of_abs_le h3
    linarith
  have h5 : ρ * devSq N e = ρ * √(devSq N e) * √(devSq N e) := by
    rw [mul_assoc, Real.mul_self_sqrt (devSq_nonneg e)]
  rcases (Real.sqrt_nonneg (devSq N e)).eq_or_lt with h0 | h0
  · rw [← h0, mul_zero]
    exact mul_nonneg (by linarith) (devSq_nonneg _)
  · refine le_of_mul_le_mul_right ?_ h0
    linarith

/-- One iteration with zero regularisation near a solution. -/
theorem newton_iter (hR : NewtonRegion N cfg S x0 cs r ρ M) (hL : L.Exact) (hw : cfg.withConstraint = false)
    (h2 : cfg.useSecond = false) (hlm : 0 < cfg.lambdaMin) (hk : 0 < cfg.kRelNormThre) (hlt : 0 < cfg.lambdaThre)
    {as : List ℝ} (ha : cfg.alphaList = 1 :: as) (hρ : 0 < ρ) (hM : 0 ≤ M) (hr1 : M * r ≤ 2 * ρ)
    (hr2 : 2 * (M * r) < 3 * ρ * (1 - cfg.costUpdateRatioThre)) {iter : ℕ} {s : Solver n m ℝ} (h0 : s.lambda = 0)
    (hc : Consistent N S x0 s.ctrl) (hr : √(devSq N (devOf cs s.ctrl)) ≤ r) :
    (∃ s' e, procOnce L N cfg S iter s = (s', .ok 1) ∧ s'.ctrl = s.ctrl ∧
      s'.trace = s.trace ++ [e] ∧ e.alpha = 0 ∧ e.kRelNorm < cfg.kRelNormThre) ∨
    (∃ s' v e, procOnce L N cfg S iter s = (s', .ok v) ∧ v = (if e.actual < cfg.costUpdateThre then 1 else 0) ∧
      s'.trace = s.trace ++ [e] ∧ e.alpha = 1 ∧ s'.lambda = 0 ∧ Consistent N S x0 s'.ctrl ∧
      ρ * √(devSq N (devOf cs s'.ctrl)) ≤ M / 2 * devSq N (devOf cs s.ctrl)) := by
  obtain ⟨s2, hb, hl, _⟩ := bwSearch_convex (L := L) (cfg := cfg) (S := S) hL hw h2
    (s := startIter N cfg S iter s) (le_of_eq h0.symm) (hR.convex s.ctrl s.derivs hc hr)
  have hl0 : s2.lambda = 0 := hl.trans h0
  obtain ⟨hctrl, hder, _, V, h3, h4, h5, h6⟩ := bwSearch_chain hb
  rw [hl0] at h4 h5 h6
  have hA : AffModel N S s.ctrl s2.derivs := hder ▸ hR.aff s.ctrl s.derivs hc hr
  have hVs : (V N).Vxx.IsSymm := by rw [h3]; exact hA.symmV
  have hN : ∀ j < N, _ := fun j hj => h4.newton hL hw hVs hA.symmU hj
  obtain ⟨_, hf2, hf3⟩ := newton_facts hL hw hA h4 h3 hc
  have hcon := newton_contract hR hL hw hM hc hr hder h4 h3
  set G := gain N cfg s2.derivs V s2.gains with hG
  have hG' : G = 1 / 2 * ∑ j ∈ range N, s2.gains.k j ⬝ᵥ (Qat cfg 0 s2.derivs V j).Quu *ᵥ s2.gains.k j := rfl
  have hd0 : s2.dV0 = -(2 * G) := by
    rw [h5, hG', ← mul_assoc, mul_sum, ← sum_neg_distrib]
    refine sum_congr rfl fun j hj => ?_
    have hq : (Qat cfg 0 s2.derivs V j).Qu = -((Qat cfg 0 s2.derivs V j).Quu *ᵥ s2.gains.k j) := by
      rw [(hN j (mem_range.1 hj)).2.1, neg_neg]
    rw [hq, dotProduct_neg]
    ring
  have hd1 : s2.dV1 = G := by rw [h6, hG', mul_sum]
  have hnn : ∀ j < N, ∀ v, 0 ≤ v ⬝ᵥ (Qat cfg 0 s2.derivs V j).Quu *ᵥ v := fun j hj v => by
    by_cases hv : v = 0
    · simp [hv]
    · exact ((posDef_iff.1 (hN j hj).1).2 v hv).le
  have hG0 : 0 ≤ G := by
    rw [hG']
    exact mul_nonneg (by norm_num) (sum_nonneg fun j hj => hnn j (mem_range.1 hj) _)
  have hGz : G = 0 → ∀ j < N, s2.gains.k j = 0 := by
    intro h j hj
    rw [hG'] at h
    by_contra hk
    have := (sum_eq_zero_iff_of_nonneg (fun j hj => hnn j (mem_range.1 hj) (s2.gains.k j))).1 (by linarith) j (mem_range.2 hj)
    exact absurd this (((posDef_iff.1 (hN j hj).1).2 _ hk).ne')
  have hout := procOnce_out (L := L) (N := N) (cfg := cfg) (S := S) iter s
  generalize procOnce L N cfg S iter s = q at hout
  cases hout with
  | bwFail s3 hb' => rw [hb] at hb'; cases hb'
  | err s3 e he hb' => rw [hb] at hb'; cases hb'; exact absurd rfl (he _)
  | small s3 hb' hk' hl' =>
    rw [hb] at hb'; cases hb'
    exact .inl ⟨_, _, rfl, hctrl, rfl, rfl, by simpa using hk'⟩
  | full s3 hb' hk' =>
    rw [hb] at hb'; cases hb'
    right
    have hGpos : 0 < G := by
      rcases hG0.lt_or_eq with h | h
      · exact h
      · exfalso
        apply hk'
        rw [kRelNorm_zero (hGz h.symm), hl0]
        exact ⟨by simpa using hk, by simpa using hlt⟩
    have hex : (tryAlpha N cfg S s2 1).expected = G := by
      rw [(tryAlpha_real s2 1).2, hd0, hd1]; ring
    set cn := forwardPass N S s.ctrl s2.gains 1 with hcn
    have hcnc : Consistent N S x0 cn := forwardPass_consistent hc.start
    -- the new error is at most the old one
    have hD0 := Real.sqrt_nonneg (devSq N (devOf cs s.ctrl))
    have hle : √(devSq N (devOf cs cn)) ≤ √(devSq N (devOf cs s.ctrl)) := by
      have e1 : devSq N (devOf cs s.ctrl) = √(devSq N (devOf cs s.ctrl)) * √(devSq N (devOf cs s.ctrl)) :=
        (Real.mul_self_sqrt (devSq_nonneg _)).symm
      rw [e1] at hcon
      have e2 : M * √(devSq N (devOf cs s.ctrl)) ≤ 2 * ρ := (mul_le_mul_of_nonneg_left hr hM).trans hr1
      refine le_of_mul_le_mul_left (hcon.trans ?_) hρ
      nlinarith
    have hdn : √(devSq N (devOf s.ctrl cn)) ≤ 2 * r := by
      rw [devOf_add s.ctrl cs cn]
      refine (devSq_add_le _ _).trans ?_
      rw [devSq_comm s.ctrl cs]
      linarith
    have hac : |(tryAlpha N cfg S s2 1).actual - G| ≤ M / 6 * √(devSq N (devOf s.ctrl cn)) ^ 3 := by
      have h7 := hR.cost s.ctrl s.derivs cn hc hr hcnc (hle.trans hr)
      have h7' : s2.derivs = calcDerivs N cfg S s.ctrl s.derivs := hder
      rw [← h7', hf2] at h7
      rw [(tryAlpha_real s2 1).1, hctrl, ← hcn, abs_sub_comm]
      have e3 : G - (totalCost N s.ctrl - totalCost N cn) = totalCost N cn - totalCost N s.ctrl - -G := by ring
      rw [e3]
      exact h7
    have hquad : ρ * √(devSq N (devOf s.ctrl cn)) ^ 2 ≤ 2 * G := by
      rw [Real.sq_sqrt (devSq_nonneg _), hf3]
      have h7 := hR.curv s.ctrl s.derivs hc hr (devOf s.ctrl cn) (devOf_isVar (hR.aff s.ctrl s.derivs hc hr) hc hcnc)
      rw [← (show s2.derivs = calcDerivs N cfg S s.ctrl s.derivs from hder)] at h7
      linarith
    have hgood : cfg.costUpdateRatioThre * G < (tryAlpha N cfg S s2 1).actual := by
      set w := √(devSq N (devOf s.ctrl cn)) with hw'
      have hw0 : 0 ≤ w := Real.sqrt_nonneg _
      have h8 : M * w * (ρ * w ^ 2) ≤ M * (2 * r) * (2 * G) :=
        mul_le_mul (mul_le_mul_of_nonneg_left hdn hM) hquad (by positivity) (mul_nonneg hM (hw0.trans hdn))
      have h9 : ρ * (M / 6 * w ^ 3) < ρ * ((1 - cfg.costUpdateRatioThre) * G) := by nlinarith
      have h10 := lt_of_mul_lt_mul_left h9 hρ.le
      have h11 := neg_le_of_abs_le hac
      linarith
    have hratio : (tryAlpha N cfg S s2 1).ratio = (tryAlpha N cfg S s2 1).actual / G := by
      have h1 : (tryAlpha N cfg S s2 1).ratio = if ltb (tryAlpha N cfg S s2 1).expected 0 then
          (if leb 0 (tryAlpha N cfg S s2 1).actual then 1 else -1)
        else (tryAlpha N cfg S s2 1).actual / (tryAlpha N cfg S s2 1).expected := rfl
      rw [h1, hex, if_neg (by simpa using hGpos.le)]
    have hsucc : (tryAlpha N cfg S s2 1).success = true := by
      have h1 : (tryAlpha N cfg S s2 1).success = ltb cfg.costUpdateRatioThre (tryAlpha N cfg S s2 1).ratio := rfl
      rw [h1, hratio]
      have : cfg.costUpdateRatioThre < (tryAlpha N cfg S s2 1).actual / G := (lt_div_iff₀ hGpos).2 hgood
      simpa using this
    have hls : lineSearch N cfg S s2 = tryAlpha N cfg S s2 1 := by
      unfold lineSearch
      rw [ha]
      unfold tryAlphas
      simp only [hsucc, if_true]
    have hcand : (lineSearch N cfg S s2).cand = cn := by rw [hls, hcn, ← hctrl]; rfl
    have hf := finishStep_out (N := N) (cfg := cfg) s.trace
      { Trace.new iter with
        kRelNorm := kRelNorm N s2, alpha := (lineSearch N cfg S s2).alpha, actual := (lineSearch N cfg S s2).actual,
        expected := (lineSearch N cfg S s2).expected, ratio := (lineSearch N cfg S s2).ratio } (lineSearch N cfg S s2) s2
    generalize finishStep N cfg s.trace _ (lineSearch N cfg S s2) s2 = q at hf
    cases hf with
    | reject hs v hv => rw [hls, hsucc] at hs; cases hs
    | accept hs v hv =>
      refine ⟨_, v, _, rfl, ?_, rfl, ?_, ?_, ?_, ?_⟩
      · rw [hv]
        simp only [ltb_real]
      · show (lineSearch N cfg S s2).alpha = 1
        rw [hls]; rfl
      · show (if leb cfg.lambdaMin s2.lambda then _ else (0 : ℝ)) = 0
        rw [hl0, if_neg (by simpa using hlm)]
      · show Consistent N S x0 (lineSearch N cfg S s2).cand
        rw [hcand]; exact hcnc
      · show ρ * √(devSq N (devOf cs (lineSearch N cfg S s2).cand)) ≤ _
        rw [hcand]; exact hcon

end Region

end Nmpc.DDP
