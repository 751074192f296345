import Verif.DDP.LimitsDescent
import Verif.DDP.Certificate

/-!
# What small feedforward terms certify with input limits (exact arithmetic): lemmas for C132
-/

namespace Nmpc.BoxQP

open Matrix

variable {n : ℕ} {L : LLT ℝ} {c : Config ℝ} {a : Args n ℝ} {o : Obj n ℝ} {r : Result n ℝ}

/-- After code 5 or 6 the gradient restricted to the stored free set is shorter than the threshold, and elsewhere it points out of the box. -/
theorem certified_gradient (h : solve L c o a = .ok r) (h56 : r.obj.retval = 5 ∨ r.obj.retval = 6) :
    ∃ v : Vec n ℝ, v ⬝ᵥ v ≤ c.gradThre ^ 2 ∧ (∀ i ∈ r.obj.free, v i = (a.g + a.H *ᵥ r.x) i) ∧
      (∀ y, InBox a.lower a.upper y → v ⬝ᵥ (y - r.x) ≤ (a.g + a.H *ᵥ r.x) ⬝ᵥ (y - r.x)) := by
  obtain ⟨s, hs, rfl⟩ := solve_rule (fun _ => True)
    (fun s => (s.retval = 5 ∨ s.retval = 6) → s.free = idxs (fun i => !clampedFlags a s.x (gradient a s.x) i) ∧
      freeGradNorm (gradient a s.x) (idxs fun i => !clampedFlags a s.x (gradient a s.x) i) ≤ c.gradThre * c.gradThre) trivial
    (fun _ _ _ _ => trivial)
    (fun s s' _ h => by
      have := mainStep_out L c a s
      rw [h] at this
      cases this with
      | grad _ _ hlt => intro _; rw [ltb_real] at hlt; exact ⟨rfl, hlt.le⟩
      | all hall =>
        intro _
        refine ⟨rfl, ?_⟩
        dsimp only
        have hz : freeGradNorm (gradient a s.x) (idxs fun i => !clampedFlags a s.x (gradient a s.x) i) = 0 := by
          rw [freeGradNorm_eq]
          refine Finset.sum_eq_zero fun i _ => ?_
          have : clampedFlags a s.x (gradient a s.x) i = true := hall i
          simp [this]
        rw [hz]
        exact mul_self_nonneg _
      | _ => intro h; exact absurd h (by simp)) h
  obtain ⟨hf, hn⟩ := hs h56
  rw [freeGradNorm_eq] at hn
  set grad := gradient a s.x with hgrad
  refine ⟨fun i => if !clampedFlags a s.x grad i then grad i else 0, ?_, fun i hi => ?_, fun y hy => ?_⟩
  · rw [pow_two]
    refine le_of_eq_of_le (Finset.sum_congr rfl fun i _ => ?_) hn
    dsimp only
    split <;> simp
  · have hi' : i ∈ s.free := hi
    rw [hf, mem_idxs] at hi'
    exact if_pos hi'
  · refine Finset.sum_le_sum fun i _ => ?_
    show _ ≤ grad i * (y - s.x) i
    dsimp only
    cases hfl : clampedFlags a s.x grad i with
    | true => simpa using flags_sign hy hfl
    | false => simp [State.result]

end Nmpc.BoxQP

namespace Nmpc.DDP

set_option linter.unusedSectionVars false

open Matrix Finset

/-! ## Norms -/

section Norm
variable {a b : ℕ}

theorem vnorm_sq_dot (v : Vec a ℝ) : vnorm v * vnorm v = v ⬝ᵥ v := by
  rw [vnorm_real, Real.mul_self_sqrt (dot_self_nonneg v)]

theorem abs_dot_le_vnorm (v w : Vec a ℝ) : |v ⬝ᵥ w| ≤ vnorm v * vnorm w := by
  refine abs_le_of_sq_le_sq ?_ (mul_nonneg (vnorm_nonneg _) (vnorm_nonneg _))
  have := Nmpc.dot_sq_le v w
  rw [mul_pow, pow_two (vnorm v), pow_two (vnorm w), vnorm_sq_dot, vnorm_sq_dot]
  exact this

/-- `A` does not stretch vectors by more than `c`. -/
def Stretch (A : Mat a b ℝ) (c : ℝ) : Prop := ∀ v, Real.sqrt ((A *ᵥ v) ⬝ᵥ (A *ᵥ v)) ≤ c * Real.sqrt (v ⬝ᵥ v)

theorem Stretch.norm {A : Mat a b ℝ} {c : ℝ} (h : Stretch A c) (v : Vec b ℝ) : vnorm (A *ᵥ v) ≤ c * vnorm v := h v

theorem Stretch.dot {A : Mat a b ℝ} {c : ℝ} (h : Stretch A c) (v : Vec a ℝ) (w : Vec b ℝ) : |v ⬝ᵥ A *ᵥ w| ≤ c * (vnorm v * vnorm w) := by
  refine (abs_dot_le_vnorm _ _).trans ?_
  calc vnorm v * vnorm (A *ᵥ w) ≤ vnorm v * (c * vnorm w) := mul_le_mul_of_nonneg_left (h.norm w) (vnorm_nonneg _)
    _ = _ := by ring

theorem psd_dot {A : Mat a a ℝ} (hA : A.PosSemidef) {c : ℝ} (hc : 0 ≤ c) (h : ∀ v, v ⬝ᵥ A *ᵥ v ≤ c * (v ⬝ᵥ v)) (v w : Vec a ℝ) :
    |v ⬝ᵥ A *ᵥ w| ≤ c * (vnorm v * vnorm w) := by
  refine abs_le_of_sq_le_sq ?_ (mul_nonneg hc (mul_nonneg (vnorm_nonneg _) (vnorm_nonneg _)))
  have h1 := BoxQP.psd_cauchy hA v w
  have hp := (posSemidef_iff.1 hA).2
  calc (v ⬝ᵥ A *ᵥ w) ^ 2 ≤ (v ⬝ᵥ A *ᵥ v) * (w ⬝ᵥ A *ᵥ w) := h1
    _ ≤ (c * (v ⬝ᵥ v)) * (c * (w ⬝ᵥ w)) := mul_le_mul (h v) (h w) (hp w) (mul_nonneg hc (dot_self_nonneg v))
    _ = _ := by rw [← vnorm_sq_dot v, ← vnorm_sq_dot w]; ring

end Norm

/-! ## One stage -/

section OneStage
variable {n k : ℕ} {L : LLT ℝ}

/-- The gains of a stage with limits were computed (DDPSolver.hpp 450-497) from a run of BoxQP that ended with code 5 or 6. -/
def CertifiedGains (L : LLT ℝ) (Q : QData n k ℝ) (lower upper u kv : Vec k ℝ) (K : Mat k n ℝ) : Prop :=
  ∃ init r, constrainedGains L Q lower upper u init = .ok (some (kv, K)) ∧
    BoxQP.solve L BoxQP.Config.default (freshQP k)
      { H := Q.QuuF, g := Q.Qu, lower := lower - u, upper := upper - u, init := init } = .ok r ∧
    (r.obj.retval = 5 ∨ r.obj.retval = 6)

/-- What is used of certified gains. -/
structure CertFacts (Q : QData n k ℝ) (lower upper u kv : Vec k ℝ) (K : Mat k n ℝ) (ε : ℝ) : Prop where
  within : ∀ i, lower i ≤ u i + kv i ∧ u i + kv i ≤ upper i
  opt : ∀ y, (∀ i, lower i ≤ y i ∧ y i ≤ upper i) →
    -(ε * vnorm (y - u - kv)) ≤ (Q.Qu + Q.QuuF *ᵥ kv) ⬝ᵥ (y - u - kv)
  feed : ∀ ξ, |(K *ᵥ ξ) ⬝ᵥ (Q.Qu + Q.QuuF *ᵥ kv)| ≤ ε * vnorm (K *ᵥ ξ)
  normal : ∀ ξ, (K *ᵥ ξ) ⬝ᵥ Q.QuuF *ᵥ (K *ᵥ ξ) = -((K *ᵥ ξ) ⬝ᵥ Q.QuxReg *ᵥ ξ)

theorem CertifiedGains.facts (hL : L.Exact) {Q : QData n k ℝ} (hQ : Q.QuuF.IsSymm) {lower upper u kv : Vec k ℝ} {K : Mat k n ℝ}
    (hlu : ∀ i, lower i ≤ upper i) (h : CertifiedGains L Q lower upper u kv K) : CertFacts Q lower upper u kv K (1 / 10 ^ 8) := by
  obtain ⟨init, r, hg, hr, h56⟩ := h
  have hbox := BoxQP.C01_result_in_box_real (r := r) (fun i => by
    show lower i - u i ≤ upper i - u i
    linarith [hlu i]) hr
  obtain ⟨v, hv, hvf, hvo⟩ := BoxQP.certified_gradient hr h56
  dsimp only at hvf hvo hbox
  have hthr : (BoxQP.Config.default : BoxQP.Config ℝ).gradThre = 1 / 10 ^ 8 := by norm_num [BoxQP.Config.default]
  have hvn : vnorm v ≤ 1 / 10 ^ 8 := by
    rw [vnorm_real]
    refine Real.sqrt_le_iff.2 ⟨by norm_num, ?_⟩
    rw [hthr] at hv
    exact hv
  have hvw : ∀ w : Vec k ℝ, |v ⬝ᵥ w| ≤ 1 / 10 ^ 8 * vnorm w := fun w =>
    (abs_dot_le_vnorm v w).trans (mul_le_mul_of_nonneg_right hvn (vnorm_nonneg _))
  have hsort := (BoxQP.C08_factorisation hr).1
  have hnd : r.obj.free.Nodup := hsort.imp (fun h => ne_of_lt h)
  -- the gains
  have hkK : r.x = kv ∧ (∀ i, i ∉ r.obj.free → ∀ j, K i j = 0) ∧
      ∀ i ∈ r.obj.free, ∀ j, ∑ i', Q.QuuF i i' * K i' j = -Q.QuxReg i j := by
    rcases constrainedGains_out (L := L) Q lower upper u init with h' | ⟨r', hr', h'⟩
    · rw [h'.1] at hg; cases hg
    obtain rfl : r' = r := by
      have := hr'.symm.trans hr
      simpa using this
    rcases h' with h' | h' | h'
    · rcases h56 with h5 | h5 <;> rw [h5] at h' <;> exact absurd h'.1 (by norm_num)
    · rw [h'.2.2] at hg
      simp only [Res.ok.injEq, Option.some.injEq] at hg
      have h1 := (Prod.ext_iff.1 hg).1
      have h2 := (Prod.ext_iff.1 hg).2
      dsimp only at h1 h2
      refine ⟨h1, fun i _ j => by rw [← h2], fun i hi => ?_⟩
      rw [h'.2.1] at hi
      exact absurd hi List.not_mem_nil
    · have hg' := h'.2.2.2
      rw [hg'] at hg
      simp only [Res.ok.injEq, Option.some.injEq, Prod.mk.injEq] at hg
      obtain ⟨hx, rfl⟩ := hg
      refine ⟨hx, fun i hi j => by rw [scatterRows, dif_neg hi], fun i hi j => ?_⟩
      obtain ⟨a, rfl⟩ := List.get_of_mem hi
      have hPD : (BoxQP.subMat Q.QuuF r'.obj.free r'.obj.free).PosDef :=
        (hL.ok_iff _ (BoxQP.subMat_symm hQ _)).1 h'.2.2.1
      have hs := solveMat_exact hL hPD (rowsOf Q.QuxReg r'.obj.free)
      have hs' := congrFun (congrFun hs a) j
      rw [Matrix.mul_apply] at hs'
      have hsplit : ∀ f : Fin k → ℝ, (∀ i, i ∉ r'.obj.free → f i = 0) → ∑ i, f i = ∑ i ∈ r'.obj.free.toFinset, f i := by
        intro f hf
        refine (sum_subset (subset_univ _) fun i _ hi => hf i (by simpa using hi)).symm
      rw [hsplit _ (fun i hi => by rw [scatterRows, dif_neg hi, mul_zero]), List.sum_toFinset _ hnd, ← BoxQP.sum_get r'.obj.free]
      have hneg : ∀ b : Fin r'.obj.free.length,
          scatterRows r'.obj.free (smulm (-1) (L.solveMat (BoxQP.subMat Q.QuuF r'.obj.free r'.obj.free)
            (rowsOf Q.QuxReg r'.obj.free))) (r'.obj.free.get b) j =
          -(L.solveMat (BoxQP.subMat Q.QuuF r'.obj.free r'.obj.free) (rowsOf Q.QuxReg r'.obj.free)) b j := by
        intro b
        rw [scatterRows_get _ hnd, smulm_real]
        simp
      simp only [hneg, mul_neg, Finset.sum_neg_distrib, neg_inj]
      exact hs'
  obtain ⟨rfl, hK0, hK1⟩ := hkK
  have hKz : ∀ ξ i, i ∉ r.obj.free → (K *ᵥ ξ) i = 0 := fun ξ i hi => by
    show ∑ j, K i j * ξ j = 0
    exact sum_eq_zero fun j _ => by rw [hK0 i hi j, zero_mul]
  refine ⟨fun i => ?_, fun y hy => ?_, fun ξ => ?_, fun ξ => ?_⟩
  · have := hbox i
    simp only [Pi.sub_apply] at this
    constructor <;> linarith [this.1, this.2]
  · have h1 := hvo (y - u) (fun i => by
      have := hy i
      simp only [Pi.sub_apply]
      constructor <;> linarith [this.1, this.2])
    have h2 := (abs_le.1 (hvw (y - u - r.x))).1
    linarith
  · have h1 : (K *ᵥ ξ) ⬝ᵥ (Q.Qu + Q.QuuF *ᵥ r.x) = v ⬝ᵥ (K *ᵥ ξ) := by
      rw [dotProduct_comm v]
      refine sum_congr rfl fun i _ => ?_
      by_cases hi : i ∈ r.obj.free
      · rw [hvf i hi]
      · rw [hKz ξ i hi, zero_mul, zero_mul]
    rw [h1]
    exact hvw _
  · rw [← dotProduct_neg]
    refine sum_congr rfl fun i _ => ?_
    by_cases hi : i ∈ r.obj.free
    · congr 1
      have h1 : Q.QuuF *ᵥ (K *ᵥ ξ) = (Q.QuuF * K) *ᵥ ξ := mulVec_mulVec _ _ _
      rw [h1]
      show ∑ j, (Q.QuuF * K) i j * ξ j = -∑ j, Q.QuxReg i j * ξ j
      rw [← sum_neg_distrib]
      refine sum_congr rfl fun j _ => ?_
      rw [Matrix.mul_apply, hK1 i hi j, neg_mul]
    · rw [hKz ξ i hi, zero_mul, zero_mul]

end OneStage

/-! ## All stages -/

section Chain
variable {n : ℕ} {m : ℕ → ℕ} {L : LLT ℝ} {cfg : Config ℝ} {N : ℕ} {S : Stages n m ℝ} {f l μ lam κ ε : ℝ}

/-- Bounds on the derivatives: `f` for those of the state equation, `l` for the Hessians of the costs, and `μ` from below for the Hessians
in the inputs. -/
structure DataBounds (N : ℕ) (d : Derivs n m ℝ) (f l μ : ℝ) : Prop where
  fx : ∀ j < N, Stretch (d.F j).Fx f
  fu : ∀ j < N, Stretch (d.F j).Fu f
  xx : ∀ j < N, Stretch (d.L j).Lxx l
  uu : ∀ j < N, Stretch (d.L j).Luu l
  xu : ∀ j < N, Stretch (d.L j).Lxu l
  term : Stretch d.V.Vxx l
  low : ∀ j < N, ∀ v : Vec (m j) ℝ, μ * (v ⬝ᵥ v) ≤ v ⬝ᵥ (d.L j).Luu *ᵥ v

/-- Bound on the Hessian of the value function `i` stages before the end. -/
noncomputable def vBound (f l lam : ℝ) : ℕ → ℝ
  | 0 => l
  | i + 1 => l + f ^ 2 * (vBound f l lam i + lam)

/-- Bound on the second derivatives of the action-value function of the stage with `i` stages after it. -/
noncomputable def qBound (f l lam : ℝ) (i : ℕ) : ℝ := l + f ^ 2 * (vBound f l lam i + lam) + lam

/-- Bound on the difference of `Vx` and the costate, relative to the size of the feedforward terms. -/
noncomputable def eBound (f l μ lam : ℝ) : ℕ → ℝ
  | 0 => 0
  | i + 1 => f * eBound f l μ lam i + (qBound f l lam i / μ * (1 + lam * (1 + f ^ 2)) + qBound f l lam i)

theorem vBound_nonneg (hl : 0 ≤ l) (hlam : 0 ≤ lam) : ∀ i, 0 ≤ vBound f l lam i
  | 0 => hl
  | i + 1 => add_nonneg hl (mul_nonneg (sq_nonneg f) (add_nonneg (vBound_nonneg hl hlam i) hlam))

theorem qBound_nonneg (hl : 0 ≤ l) (hlam : 0 ≤ lam) (i : ℕ) : 0 ≤ qBound f l lam i :=
  add_nonneg (add_nonneg hl (mul_nonneg (sq_nonneg f) (add_nonneg (vBound_nonneg hl hlam i) hlam))) hlam

theorem eBound_nonneg (hf : 0 ≤ f) (hl : 0 ≤ l) (hμ : 0 < μ) (hlam : 0 ≤ lam) : ∀ i, 0 ≤ eBound f l μ lam i
  | 0 => le_rfl
  | i + 1 => by
    have := qBound_nonneg (f := f) hl hlam i
    have := eBound_nonneg hf hl hμ hlam i
    unfold eBound
    positivity

theorem fro_le {k : ℕ} {F : Mat n k ℝ} (h : Stretch F f) (v : Vec k ℝ) : (F *ᵥ v) ⬝ᵥ (F *ᵥ v) ≤ f ^ 2 * (v ⬝ᵥ v) := by
  rw [← vnorm_sq_dot, ← vnorm_sq_dot]
  nlinarith [mul_self_le_mul_self (vnorm_nonneg _) (h.norm v)]

theorem stretch_pair {k k' : ℕ} {F : Mat n k ℝ} {F' : Mat n k' ℝ} (hf : 0 ≤ f) (h : Stretch F f) (h' : Stretch F' f) (v : Vec k ℝ) (w : Vec k' ℝ) :
    vnorm (F *ᵥ v) * vnorm (F' *ᵥ w) ≤ f ^ 2 * (vnorm v * vnorm w) := by
  calc vnorm (F *ᵥ v) * vnorm (F' *ᵥ w) ≤ (f * vnorm v) * (f * vnorm w) :=
        mul_le_mul (h.norm v) (h'.norm w) (vnorm_nonneg _) (mul_nonneg hf (vnorm_nonneg _))
    _ = _ := by ring

theorem reg1_le {lambda : ℝ} (h0 : 0 ≤ lambda) (h : lambda ≤ lam) : reg1 cfg lambda ≤ lam := by
  unfold reg1; split <;> linarith

theorem reg2_le {lambda : ℝ} (h0 : 0 ≤ lambda) (h : lambda ≤ lam) : reg2 cfg lambda ≤ lam := by
  unfold reg2; split <;> linarith

section Stage
variable {k : ℕ} {lambda w : ℝ} {F : FDeriv n k ℝ} {Ld : LDeriv n k ℝ} {V : VDeriv n ℝ}

/-- Bounds on the matrices of one stage. -/
theorem stage_abs (hf : 0 ≤ f) (hfx : Stretch F.Fx f) (hfu : Stretch F.Fu f) (huu : Stretch Ld.Luu l) (hxu : Stretch Ld.Lxu l)
    (hV : V.Vxx.PosSemidef) (hw0 : 0 ≤ w) (hw : ∀ v, v ⬝ᵥ V.Vxx *ᵥ v ≤ w * (v ⬝ᵥ v)) (h0 : 0 ≤ lambda) (h1 : lambda ≤ lam) :
    (∀ a b, |a ⬝ᵥ (calcQ cfg lambda F Ld V).QuuF *ᵥ b| ≤ (l + f ^ 2 * (w + lam) + lam) * (vnorm a * vnorm b)) ∧
    (∀ a ξ, |a ⬝ᵥ (calcQ cfg lambda F Ld V).Qux *ᵥ ξ| ≤ (l + f ^ 2 * (w + lam) + lam) * (vnorm a * vnorm ξ)) ∧
    (∀ a ξ, |a ⬝ᵥ (calcQ cfg lambda F Ld V).QuxReg *ᵥ ξ| ≤ (l + f ^ 2 * (w + lam) + lam) * (vnorm a * vnorm ξ)) := by
  have hr1 := reg1_nonneg (cfg := cfg) h0
  have hr2 := reg2_nonneg (cfg := cfg) h0
  have hr1' := reg1_le (cfg := cfg) h0 h1
  have hr2' := reg2_le (cfg := cfg) h0 h1
  have hf2 : 0 ≤ f ^ 2 := sq_nonneg f
  have hux : ∀ a ξ, |a ⬝ᵥ (calcQ cfg lambda F Ld V).Qux *ᵥ ξ| ≤ (l + f ^ 2 * w) * (vnorm a * vnorm ξ) := by
    intro a ξ
    have e : a ⬝ᵥ (calcQ cfg lambda F Ld V).Qux *ᵥ ξ = ξ ⬝ᵥ Ld.Lxu *ᵥ a + (F.Fu *ᵥ a) ⬝ᵥ V.Vxx *ᵥ (F.Fx *ᵥ ξ) := by
      simp only [calcQ, matMul_real, add_mulVec, dotProduct_add, conj_dot, tmul_dot']
    rw [e]
    refine (abs_add_le _ _).trans ?_
    have b1 := hxu.dot ξ a
    have b2 := psd_dot hV hw0 hw (F.Fu *ᵥ a) (F.Fx *ᵥ ξ)
    have b3 := mul_le_mul_of_nonneg_left (stretch_pair hf hfu hfx a ξ) hw0
    nlinarith
  refine ⟨fun a b => ?_, fun a ξ => ?_, fun a ξ => ?_⟩
  · rw [quuF_dot]
    have e : a ⬝ᵥ (calcQ cfg lambda F Ld V).Quu *ᵥ b = a ⬝ᵥ Ld.Luu *ᵥ b + (F.Fu *ᵥ a) ⬝ᵥ V.Vxx *ᵥ (F.Fu *ᵥ b) := by
      simp only [calcQ, matMul_real, add_mulVec, dotProduct_add, conj_dot]
    rw [e]
    have b1 := huu.dot a b
    have b2 := psd_dot hV hw0 hw (F.Fu *ᵥ a) (F.Fu *ᵥ b)
    have b0 := stretch_pair hf hfu hfu a b
    have b3 := mul_le_mul_of_nonneg_left b0 hw0
    have b4 : |reg1 cfg lambda * (a ⬝ᵥ b)| ≤ lam * (vnorm a * vnorm b) := by
      rw [abs_mul, abs_of_nonneg hr1]
      exact mul_le_mul hr1' (abs_dot_le_vnorm a b) (abs_nonneg _) (hr1.trans hr1')
    have b5 : |reg2 cfg lambda * ((F.Fu *ᵥ a) ⬝ᵥ (F.Fu *ᵥ b))| ≤ lam * (f ^ 2 * (vnorm a * vnorm b)) := by
      rw [abs_mul, abs_of_nonneg hr2]
      exact mul_le_mul hr2' ((abs_dot_le_vnorm _ _).trans b0) (abs_nonneg _) (hr2.trans hr2')
    refine (abs_add_le _ _).trans ((add_le_add ((abs_add_le _ _).trans (add_le_add (abs_add_le _ _) le_rfl)) le_rfl).trans ?_)
    nlinarith
  · refine (hux a ξ).trans (mul_le_mul_of_nonneg_right ?_ (mul_nonneg (vnorm_nonneg _) (vnorm_nonneg _)))
    nlinarith [h0.trans h1, mul_nonneg hf2 (h0.trans h1)]
  · rw [quxReg_dot]
    have b0 := stretch_pair hf hfu hfx a ξ
    have b5 : |reg2 cfg lambda * ((F.Fu *ᵥ a) ⬝ᵥ (F.Fx *ᵥ ξ))| ≤ lam * (f ^ 2 * (vnorm a * vnorm ξ)) := by
      rw [abs_mul, abs_of_nonneg hr2]
      exact mul_le_mul hr2' ((abs_dot_le_vnorm _ _).trans b0) (abs_nonneg _) (hr2.trans hr2')
    have b6 : 0 ≤ lam * (vnorm a * vnorm ξ) := mul_nonneg (h0.trans h1) (mul_nonneg (vnorm_nonneg _) (vnorm_nonneg _))
    refine (abs_add_le _ _).trans ((add_le_add (hux a ξ) b5).trans ?_)
    nlinarith

/-- The feedback of a certified stage is bounded by the data. -/
theorem stage_K (hμ : 0 < μ) (hlow : ∀ v, μ * (v ⬝ᵥ v) ≤ v ⬝ᵥ Ld.Luu *ᵥ v) (hV : V.Vxx.PosSemidef) (h0 : 0 ≤ lambda) {q : ℝ} (hq0 : 0 ≤ q)
    (hq : ∀ a ξ, |a ⬝ᵥ (calcQ cfg lambda F Ld V).QuxReg *ᵥ ξ| ≤ q * (vnorm a * vnorm ξ)) {lower upper u kv : Vec k ℝ} {K : Mat k n ℝ}
    (hc : CertFacts (calcQ cfg lambda F Ld V) lower upper u kv K ε) (ξ : Vec n ℝ) : vnorm (K *ᵥ ξ) ≤ q / μ * vnorm ξ := by
  set e := K *ᵥ ξ with he
  have h1 : μ * (e ⬝ᵥ e) ≤ e ⬝ᵥ (calcQ cfg lambda F Ld V).QuuF *ᵥ e := by
    refine le_trans ?_ (calcQ_quad_le h0 _ _ _ _)
    have := calcQ_quad (cfg := cfg) (lambda := lambda) F Ld V (posSemidef_iff.1 hV).1 0 e
    simp only [mulVec_zero, zero_dotProduct, dotProduct_zero, zero_add, mul_zero, add_zero] at this
    rw [this]
    linarith [hlow e, (posSemidef_iff.1 hV).2 (F.Fu *ᵥ e)]
  have h2 := hc.normal ξ
  rw [← he] at h2
  have h3 := (abs_le.1 (hq e ξ)).1
  rw [← vnorm_sq_dot] at h1
  rcases (vnorm_nonneg e).lt_or_eq with h4 | h4
  · have h5 : μ * vnorm e ≤ q * vnorm ξ := by
      refine le_of_mul_le_mul_left ?_ h4
      nlinarith
    rw [div_mul_eq_mul_div, le_div_iff₀ hμ]
    linarith
  · rw [← h4]
    exact mul_nonneg (div_nonneg hq0 hμ.le) (vnorm_nonneg _)

/-- The Hessian of the value function of a certified stage is bounded by the data. -/
theorem stage_V (hfx : Stretch F.Fx f) (hxx : Stretch Ld.Lxx l) (hR : Ld.Luu.PosDef)
    (hV : V.Vxx.PosSemidef) (hw0 : 0 ≤ w) (hw : ∀ v, v ⬝ᵥ V.Vxx *ᵥ v ≤ w * (v ⬝ᵥ v)) (h0 : 0 ≤ lambda) (h1 : lambda ≤ lam)
    {lower upper u kv : Vec k ℝ} {K : Mat k n ℝ} (hc : CertFacts (calcQ cfg lambda F Ld V) lower upper u kv K ε) (v : Vec n ℝ) :
    v ⬝ᵥ (updateV (calcQ cfg lambda F Ld V) kv K).Vxx *ᵥ v ≤ (l + f ^ 2 * (w + lam)) * (v ⬝ᵥ v) := by
  have hr1 := reg1_nonneg (cfg := cfg) h0
  have hr2 := reg2_nonneg (cfg := cfg) h0
  have hr2' := reg2_le (cfg := cfg) h0 h1
  rw [updateV_quad]
  set e := K *ᵥ v with he
  have h2 := hc.normal v
  rw [← he, quxReg_dot] at h2
  have hpos : 0 ≤ e ⬝ᵥ (calcQ cfg lambda F Ld V).QuuF *ᵥ e := (posSemidef_iff.1 (calcQ_posDef h0 hV hR).posSemidef).2 e
  have h3 := quuF_dot (cfg := cfg) (lambda := lambda) F Ld V e e
  have h4 : v ⬝ᵥ (calcQ cfg lambda F Ld V).Qxx *ᵥ v = v ⬝ᵥ Ld.Lxx *ᵥ v + (F.Fx *ᵥ v) ⬝ᵥ V.Vxx *ᵥ (F.Fx *ᵥ v) := by
    simp only [calcQ, matMul_real, add_mulVec, dotProduct_add, conj_dot]
  have h5 := (abs_le.1 (hxx.dot v v)).2
  rw [vnorm_sq_dot] at h5
  have h6 := hw (F.Fx *ᵥ v)
  have h7 := fro_le hfx v
  have h8 := dot_self_nonneg (F.Fu *ᵥ e + F.Fx *ᵥ v)
  rw [add_dotProduct, dotProduct_add, dotProduct_add, dotProduct_comm (F.Fx *ᵥ v) (F.Fu *ᵥ e)] at h8
  have h9 : 0 ≤ reg2 cfg lambda * ((F.Fu *ᵥ e) ⬝ᵥ (F.Fu *ᵥ e) + (F.Fu *ᵥ e) ⬝ᵥ (F.Fx *ᵥ v) +
    ((F.Fu *ᵥ e) ⬝ᵥ (F.Fx *ᵥ v) + (F.Fx *ᵥ v) ⬝ᵥ (F.Fx *ᵥ v))) := mul_nonneg hr2 h8
  have h10 : reg2 cfg lambda * ((F.Fx *ᵥ v) ⬝ᵥ (F.Fx *ᵥ v)) ≤ lam * (f ^ 2 * (v ⬝ᵥ v)) :=
    mul_le_mul hr2' h7 (dot_self_nonneg _) (h0.trans h1)
  have h11 := mul_le_mul_of_nonneg_left h7 hw0
  have h12 := mul_nonneg hr1 (dot_self_nonneg e)
  rw [h4]
  nlinarith

/-- The change of `Vx` relative to the costate at a certified stage. -/
theorem stage_Vx (hμ : 0 < μ) (hf : 0 ≤ f) (hl : 0 ≤ l) (hfx : Stretch F.Fx f) (hfu : Stretch F.Fu f) (huu : Stretch Ld.Luu l)
    (hxu : Stretch Ld.Lxu l) (hlow : ∀ v, μ * (v ⬝ᵥ v) ≤ v ⬝ᵥ Ld.Luu *ᵥ v)
    (hV : V.Vxx.PosSemidef) (hw0 : 0 ≤ w) (hw : ∀ v, v ⬝ᵥ V.Vxx *ᵥ v ≤ w * (v ⬝ᵥ v)) (h0 : 0 ≤ lambda) (h1 : lambda ≤ lam)
    {lower upper u kv : Vec k ℝ} {K : Mat k n ℝ} (hε : 0 ≤ ε) (hc : CertFacts (calcQ cfg lambda F Ld V) lower upper u kv K ε)
    (hk : vnorm kv ≤ κ) {p : Vec n ℝ} {h : ℝ} (hp : ∀ ζ, |(V.Vx - p) ⬝ᵥ ζ| ≤ h * (κ + ε) * vnorm ζ) (hh : 0 ≤ h) (ζ : Vec n ℝ) :
    |((updateV (calcQ cfg lambda F Ld V) kv K).Vx - (Ld.Lx + F.Fxᵀ *ᵥ p)) ⬝ᵥ ζ| ≤
      (f * h + ((l + f ^ 2 * (w + lam) + lam) / μ * (1 + lam * (1 + f ^ 2)) + (l + f ^ 2 * (w + lam) + lam))) * (κ + ε) * vnorm ζ := by
  have hr1 := reg1_nonneg (cfg := cfg) h0
  have hr2 := reg2_nonneg (cfg := cfg) h0
  have hr1' := reg1_le (cfg := cfg) h0 h1
  have hr2' := reg2_le (cfg := cfg) h0 h1
  have hlam := h0.trans h1
  have hκ := (vnorm_nonneg _).trans hk
  obtain ⟨q1, q2, q3⟩ := stage_abs (cfg := cfg) hf hfx hfu huu hxu hV hw0 hw h0 h1
  set q := l + f ^ 2 * (w + lam) + lam with hq
  have hq0 : 0 ≤ q := by positivity
  have hK := stage_K hμ hlow hV h0 hq0 q3 hc ζ
  set e := K *ᵥ ζ with he
  have e1 : ((updateV (calcQ cfg lambda F Ld V) kv K).Vx - (Ld.Lx + F.Fxᵀ *ᵥ p)) ⬝ᵥ ζ =
      (V.Vx - p) ⬝ᵥ F.Fx *ᵥ ζ + (e ⬝ᵥ ((calcQ cfg lambda F Ld V).Qu + (calcQ cfg lambda F Ld V).QuuF *ᵥ kv) -
        reg1 cfg lambda * (e ⬝ᵥ kv) - reg2 cfg lambda * ((F.Fu *ᵥ e) ⬝ᵥ (F.Fu *ᵥ kv))) +
        kv ⬝ᵥ (calcQ cfg lambda F Ld V).Qux *ᵥ ζ := by
    have e2 := quuF_dot (cfg := cfg) (lambda := lambda) F Ld V e kv
    have e3 : (calcQ cfg lambda F Ld V).Qx = Ld.Lx + F.Fxᵀ *ᵥ V.Vx := rfl
    rw [dotProduct_add, e2]
    have e4 : (updateV (calcQ cfg lambda F Ld V) kv K).Vx = (calcQ cfg lambda F Ld V).Qx + (Kᵀ * (calcQ cfg lambda F Ld V).Quu) *ᵥ kv +
      Kᵀ *ᵥ (calcQ cfg lambda F Ld V).Qu + (calcQ cfg lambda F Ld V).Quxᵀ *ᵥ kv := rfl
    rw [e4, e3]
    simp only [sub_dotProduct, add_dotProduct, ← mulVec_mulVec, tmul_dot, ← he]
    rw [dotProduct_comm ((calcQ cfg lambda F Ld V).Quu *ᵥ kv) e, dotProduct_comm (calcQ cfg lambda F Ld V).Qu e]
    ring
  have b1 : |(V.Vx - p) ⬝ᵥ F.Fx *ᵥ ζ| ≤ h * (κ + ε) * (f * vnorm ζ) :=
    (hp _).trans (mul_le_mul_of_nonneg_left (hfx.norm ζ) (by positivity))
  have b2 := hc.feed ζ
  rw [← he] at b2
  have b3 : |reg1 cfg lambda * (e ⬝ᵥ kv)| ≤ lam * (vnorm e * κ) := by
    rw [abs_mul, abs_of_nonneg hr1]
    exact mul_le_mul hr1' ((abs_dot_le_vnorm _ _).trans (mul_le_mul_of_nonneg_left hk (vnorm_nonneg _))) (abs_nonneg _) hlam
  have b4 : |reg2 cfg lambda * ((F.Fu *ᵥ e) ⬝ᵥ (F.Fu *ᵥ kv))| ≤ lam * (f ^ 2 * (vnorm e * κ)) := by
    rw [abs_mul, abs_of_nonneg hr2]
    refine mul_le_mul hr2' ((abs_dot_le_vnorm _ _).trans ((stretch_pair hf hfu hfu e kv).trans ?_)) (abs_nonneg _) hlam
    exact mul_le_mul_of_nonneg_left (mul_le_mul_of_nonneg_left hk (vnorm_nonneg _)) (sq_nonneg f)
  have b5 : |kv ⬝ᵥ (calcQ cfg lambda F Ld V).Qux *ᵥ ζ| ≤ q * (κ * vnorm ζ) :=
    (q2 kv ζ).trans (mul_le_mul_of_nonneg_left (mul_le_mul_of_nonneg_right hk (vnorm_nonneg _)) hq0)
  have b6 : ε * vnorm e + lam * (vnorm e * κ) + lam * (f ^ 2 * (vnorm e * κ)) ≤ q / μ * (1 + lam * (1 + f ^ 2)) * (κ + ε) * vnorm ζ := by
    have c1 : ε * vnorm e + lam * (vnorm e * κ) + lam * (f ^ 2 * (vnorm e * κ)) = (ε + lam * (1 + f ^ 2) * κ) * vnorm e := by ring
    have c2 : ε + lam * (1 + f ^ 2) * κ ≤ (1 + lam * (1 + f ^ 2)) * (κ + ε) := by
      have : 0 ≤ lam * (1 + f ^ 2) := by positivity
      nlinarith
    rw [c1]
    calc (ε + lam * (1 + f ^ 2) * κ) * vnorm e ≤ ((1 + lam * (1 + f ^ 2)) * (κ + ε)) * (q / μ * vnorm ζ) :=
          mul_le_mul c2 hK (vnorm_nonneg _) (by positivity)
      _ = _ := by ring
  have b7 : q * (κ * vnorm ζ) ≤ q * (κ + ε) * vnorm ζ := by
    have := mul_nonneg (mul_nonneg hq0 hε) (vnorm_nonneg ζ)
    nlinarith
  rw [e1]
  have t1 := abs_le.1 b1
  have t2 := abs_le.1 b2
  have t3 := abs_le.1 b3
  have t4 := abs_le.1 b4
  have t5 := abs_le.1 b5
  have t6 : (f * h + (q / μ * (1 + lam * (1 + f ^ 2)) + q)) * (κ + ε) * vnorm ζ = h * (κ + ε) * (f * vnorm ζ) +
    q / μ * (1 + lam * (1 + f ^ 2)) * (κ + ε) * vnorm ζ + q * (κ + ε) * vnorm ζ := by ring
  rw [t6]
  exact abs_le.2 ⟨by linarith [t1.1, t2.1, t3.2, t4.2, t5.1], by linarith [t1.2, t2.2, t3.1, t4.1, t5.2]⟩

/-- First-order optimality over the limits up to the size of the feedforward term. -/
theorem stage_opt (hf : 0 ≤ f) (hl : 0 ≤ l) (hfx : Stretch F.Fx f) (hfu : Stretch F.Fu f) (huu : Stretch Ld.Luu l)
    (hxu : Stretch Ld.Lxu l)
    (hV : V.Vxx.PosSemidef) (hw0 : 0 ≤ w) (hw : ∀ v, v ⬝ᵥ V.Vxx *ᵥ v ≤ w * (v ⬝ᵥ v)) (h0 : 0 ≤ lambda) (h1 : lambda ≤ lam)
    {lower upper u kv : Vec k ℝ} {K : Mat k n ℝ} (hε : 0 ≤ ε) (hc : CertFacts (calcQ cfg lambda F Ld V) lower upper u kv K ε)
    (hk : vnorm kv ≤ κ) {p : Vec n ℝ} {h : ℝ} (hp : ∀ ζ, |(V.Vx - p) ⬝ᵥ ζ| ≤ h * (κ + ε) * vnorm ζ) (hh : 0 ≤ h)
    {y : Vec k ℝ} (hy : ∀ i, lower i ≤ y i ∧ y i ≤ upper i) :
    -((1 + (l + f ^ 2 * (w + lam) + lam) + f * h) * (κ + ε) * vnorm (y - (u + kv))) ≤
      (Ld.Lu + F.Fuᵀ *ᵥ p) ⬝ᵥ (y - (u + kv)) := by
  have hlam := h0.trans h1
  have hκ := (vnorm_nonneg _).trans hk
  obtain ⟨q1, q2, q3⟩ := stage_abs (cfg := cfg) hf hfx hfu huu hxu hV hw0 hw h0 h1
  set q := l + f ^ 2 * (w + lam) + lam with hq
  have hq0 : 0 ≤ q := by positivity
  have ho := hc.opt y hy
  rw [show y - u - kv = y - (u + kv) by abel] at ho
  set v := y - (u + kv) with hv
  have e1 : (Ld.Lu + F.Fuᵀ *ᵥ p) ⬝ᵥ v = ((calcQ cfg lambda F Ld V).Qu + (calcQ cfg lambda F Ld V).QuuF *ᵥ kv) ⬝ᵥ v -
      v ⬝ᵥ (calcQ cfg lambda F Ld V).QuuF *ᵥ kv - (V.Vx - p) ⬝ᵥ F.Fu *ᵥ v := by
    have e3 : (calcQ cfg lambda F Ld V).Qu = Ld.Lu + F.Fuᵀ *ᵥ V.Vx := rfl
    rw [e3]
    simp only [sub_dotProduct, add_dotProduct, tmul_dot]
    rw [dotProduct_comm ((calcQ cfg lambda F Ld V).QuuF *ᵥ kv) v]
    ring
  have b1 : |(V.Vx - p) ⬝ᵥ F.Fu *ᵥ v| ≤ h * (κ + ε) * (f * vnorm v) :=
    (hp _).trans (mul_le_mul_of_nonneg_left (hfu.norm v) (by positivity))
  have b2 : |v ⬝ᵥ (calcQ cfg lambda F Ld V).QuuF *ᵥ kv| ≤ q * (vnorm v * κ) :=
    (q1 v kv).trans (mul_le_mul_of_nonneg_left (mul_le_mul_of_nonneg_left hk (vnorm_nonneg _)) hq0)
  rw [e1]
  have t1 := (abs_le.1 b1).2
  have t2 := (abs_le.1 b2).2
  have t3 : (1 + q + f * h) * (κ + ε) * vnorm v = κ * vnorm v + ε * vnorm v + q * (vnorm v * κ) + q * ε * vnorm v +
    h * (κ + ε) * (f * vnorm v) := by ring
  have t4 := mul_nonneg hκ (vnorm_nonneg v)
  have t5 := mul_nonneg (mul_nonneg hq0 hε) (vnorm_nonneg v)
  rw [t3]
  linarith

end Stage

/-- The constant of the stage with `i` stages after it. -/
noncomputable def limitBound (f l μ lam : ℝ) (i : ℕ) : ℝ := 1 + qBound f l lam i + f * eBound f l μ lam i

theorem limitBound_nonneg (hf : 0 ≤ f) (hl : 0 ≤ l) (hμ : 0 < μ) (hlam : 0 ≤ lam) (i : ℕ) : 0 ≤ limitBound f l μ lam i := by
  have h1 := qBound_nonneg (f := f) hl hlam i
  have h2 := eBound_nonneg hf hl hμ hlam i
  unfold limitBound
  positivity

theorem chain_bounds {d : Derivs n m ℝ} {lambda : ℝ} {V : ℕ → VDeriv n ℝ} {kv : (j : ℕ) → Vec (m j) ℝ} {K : (j : ℕ) → Mat (m j) n ℝ}
    {u lower upper : (j : ℕ) → Vec (m j) ℝ} (hVN : V N = d.V)
    (hval : ∀ j < N, V j = updateV (calcQ cfg lambda (d.F j) (d.L j) (V (j + 1))) (kv j) (K j)) (hM : ConvexModel N d)
    (hB : DataBounds N d f l μ) (hf : 0 ≤ f) (hl : 0 ≤ l) (hμ : 0 < μ) (h0 : 0 ≤ lambda) (h1 : lambda ≤ lam) (hε : 0 ≤ ε)
    (hc : ∀ j < N, CertFacts (calcQ cfg lambda (d.F j) (d.L j) (V (j + 1))) (lower j) (upper j) (u j) (kv j) (K j) ε)
    (hk : ∀ j < N, vnorm (kv j) ≤ κ) {p : ℕ → Vec n ℝ} (hpN : p N = d.V.Vx)
    (hp : ∀ j < N, p j = (d.L j).Lx + (d.F j).Fxᵀ *ᵥ p (j + 1)) : ∀ i j, j + i = N →
    (V j).Vxx.PosSemidef ∧ (∀ v, v ⬝ᵥ (V j).Vxx *ᵥ v ≤ vBound f l lam i * (v ⬝ᵥ v)) ∧
      ∀ ζ, |((V j).Vx - p j) ⬝ᵥ ζ| ≤ eBound f l μ lam i * (κ + ε) * vnorm ζ := by
  have hlam := h0.trans h1
  intro i
  induction i with
  | zero =>
    intro j hj
    obtain rfl : j = N := by omega
    rw [hVN, hpN]
    refine ⟨hM.term, fun v => ?_, fun ζ => ?_⟩
    · have := (abs_le.1 (hB.term.dot v v)).2
      rw [vnorm_sq_dot] at this
      exact this
    · rw [sub_self, zero_dotProduct, abs_zero]
      simp [eBound]
  | succ i ih =>
    intro j hj
    have hjN : j < N := by omega
    obtain ⟨i1, i2, i3⟩ := ih (j + 1) (by omega)
    have hw0 := vBound_nonneg (f := f) hl hlam i
    rw [hval j hjN, hp j hjN]
    refine ⟨?_, fun v => ?_, fun ζ => ?_⟩
    · have hVs := posSemidef_iff.1 i1
      refine posSemidef_iff.2 ⟨updateV_symm _ _ _, fun dx => ?_⟩
      rw [updateV_quad]
      have h2 := calcQ_quad (cfg := cfg) (lambda := lambda) (d.F j) (d.L j) (V (j + 1)) hVs.1 dx (K j *ᵥ dx)
      have h3 := hM.stage j hjN dx (K j *ᵥ dx)
      have h4 := hVs.2 ((d.F j).Fx *ᵥ dx + (d.F j).Fu *ᵥ (K j *ᵥ dx))
      linarith
    · exact stage_V (hB.fx j hjN) (hB.xx j hjN) (hM.input j hjN) i1 hw0 i2 h0 h1 (hc j hjN) v
    · exact stage_Vx hμ hf hl (hB.fx j hjN) (hB.fu j hjN) (hB.uu j hjN) (hB.xu j hjN) (hB.low j hjN) i1 hw0 i2 h0 h1 hε (hc j hjN)
        (hk j hjN) i3 (eBound_nonneg hf hl hμ hlam i) ζ

/-- First-order optimality over the limits at every stage, up to the size of the feedforward terms. -/
theorem chain_opt {d : Derivs n m ℝ} {lambda : ℝ} {V : ℕ → VDeriv n ℝ} {kv : (j : ℕ) → Vec (m j) ℝ} {K : (j : ℕ) → Mat (m j) n ℝ}
    {u lower upper : (j : ℕ) → Vec (m j) ℝ} (hVN : V N = d.V)
    (hval : ∀ j < N, V j = updateV (calcQ cfg lambda (d.F j) (d.L j) (V (j + 1))) (kv j) (K j)) (hM : ConvexModel N d)
    (hB : DataBounds N d f l μ) (hf : 0 ≤ f) (hl : 0 ≤ l) (hμ : 0 < μ) (h0 : 0 ≤ lambda) (h1 : lambda ≤ lam) (hε : 0 ≤ ε)
    (hc : ∀ j < N, CertFacts (calcQ cfg lambda (d.F j) (d.L j) (V (j + 1))) (lower j) (upper j) (u j) (kv j) (K j) ε)
    (hk : ∀ j < N, vnorm (kv j) ≤ κ) {p : ℕ → Vec n ℝ} (hpN : p N = d.V.Vx)
    (hp : ∀ j < N, p j = (d.L j).Lx + (d.F j).Fxᵀ *ᵥ p (j + 1)) {j : ℕ} (hj : j < N) {y : Vec (m j) ℝ}
    (hy : ∀ i, lower j i ≤ y i ∧ y i ≤ upper j i) :
    -(limitBound f l μ lam (N - (j + 1)) * (κ + ε) * vnorm (y - (u j + kv j))) ≤
      ((d.L j).Lu + (d.F j).Fuᵀ *ᵥ p (j + 1)) ⬝ᵥ (y - (u j + kv j)) := by
  have hlam := h0.trans h1
  obtain ⟨i1, i2, i3⟩ := chain_bounds hVN hval hM hB hf hl hμ h0 h1 hε hc hk hpN hp (N - (j + 1)) (j + 1) (by omega)
  exact stage_opt hf hl (hB.fx j hj) (hB.fu j hj) (hB.uu j hj) (hB.xu j hj) i1 (vBound_nonneg hl hlam _) i2 h0 h1 hε (hc j hj) (hk j hj)
    i3 (eBound_nonneg hf hl hμ hlam _) hy

end Chain

end Nmpc.DDP
