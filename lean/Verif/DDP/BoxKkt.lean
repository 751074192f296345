import Verif.DDP.Limits
import Verif.DDP.Stationary
import Verif.DDP.NonlinearProps

/-!
# Fixed points of the solver with input limits (exact arithmetic): lemmas for C80
-/

namespace Nmpc.BoxQP

open Matrix

variable {n : ℕ} {L : LLT ℝ} {c : Config ℝ} {a : Args n ℝ} {o : Obj n ℝ}

theorem clampBox_id {l u x : Vec n ℝ} (h : InBox l u x) : clampBox l u x = x := by
  ext i
  simp only [clampBox, fmax_real, fmin_real]
  rw [min_eq_left (h i).2, max_eq_left (h i).1]

/-- If the initial guess is in the box and the gradient vanishes at every index that is not clamped, the guess is returned by the first
iteration, with code 5 or 6, and the stored free set is that of the guess. -/
theorem solve_at_kkt (hL : L.Exact) (hH : a.H.PosDef) (hin : InBox a.lower a.upper a.init) (hg : 0 < c.gradThre)
    (hk : ∀ i, clampedFlags a a.init (gradient a a.init) i = false → gradient a a.init i = 0) :
    ∃ r, solve L c o a = .ok r ∧ r.x = a.init ∧ (r.obj.retval = 5 ∨ r.obj.retval = 6) ∧
      r.obj.free = idxs fun i => !clampedFlags a a.init (gradient a a.init) i := by
  have hx : (initState a o).x = a.init := clampBox_id hin
  have hstep : ∃ s', mainStep L c a (initState a o) = .inr (.ok s') ∧ s'.x = a.init ∧ (s'.retval = 5 ∨ s'.retval = 6) ∧
      s'.free = idxs fun i => !clampedFlags a a.init (gradient a a.init) i := by
    unfold mainStep
    dsimp only
    have h1 : (initState a o).iter = 1 := rfl
    rw [if_neg (by simp [h1]), hx]
    split
    · exact ⟨_, rfl, rfl, .inr rfl, rfl⟩
    · have hpd := subMat_posDef hH fun i => !clampedFlags a a.init (gradient a a.init) i
      have hok := (hL.ok_iff _ (posDef_iff.1 hpd).1).2 hpd
      rw [if_neg (by rw [hok]; simp)]
      have hz : freeGradNorm (gradient a a.init) (idxs fun i => !clampedFlags a a.init (gradient a a.init) i) = 0 := by
        rw [freeGradNorm_eq]
        refine Finset.sum_eq_zero fun i _ => ?_
        cases hf : clampedFlags a a.init (gradient a a.init) i with
        | true => simp
        | false => simp [hk i hf]
      rw [if_pos (by rw [hz]; simpa using mul_pos hg hg)]
      exact ⟨_, rfl, rfl, .inl rfl, rfl⟩
  obtain ⟨s', h1, h2, h3, h4⟩ := hstep
  refine ⟨s'.result, ?_, h2, h3, h4⟩
  unfold solve loopR
  rw [loopM_inr h1]
  rfl

end Nmpc.BoxQP

namespace Nmpc.DDP

set_option linter.unusedSectionVars false

open Matrix Finset

/-- First-order optimality of an input `u` with gradient `g` over a box: a component with positive gradient is at its lower limit, one
with negative gradient at its upper limit. -/
def BoxOptimal {k : ℕ} (lower upper u g : Vec k ℝ) : Prop :=
  ∀ r, (lower r ≤ u r ∧ u r ≤ upper r) ∧ (0 < g r → u r = lower r) ∧ (g r < 0 → u r = upper r)

section OneStage
variable {n k : ℕ} {L : LLT ℝ}

theorem constrainedGains_kkt (hL : L.Exact) {Q : QData n k ℝ} (hQ : Q.QuuF.PosDef) {lower upper u : Vec k ℝ}
    (hk : BoxOptimal lower upper u Q.Qu) :
    ∃ K : Mat k n ℝ, constrainedGains L Q lower upper u 0 = .ok (some (0, K)) ∧ Kᵀ *ᵥ Q.Qu = 0 := by
  set a : BoxQP.Args k ℝ := { H := Q.QuuF, g := Q.Qu, lower := lower - u, upper := upper - u, init := 0 } with ha
  have hgr : BoxQP.gradient a a.init = Q.Qu := by
    rw [BoxQP.gradient_real]; simp [ha]
  have hflag : ∀ i, BoxQP.clampedFlags a a.init Q.Qu i = false → Q.Qu i = 0 := by
    intro i hi
    simp only [BoxQP.clampedFlags] at hi
    rw [Bool.or_eq_false_iff, Bool.and_eq_false_iff, Bool.and_eq_false_iff] at hi
    simp only [← Bool.not_eq_true, eqb_real, ltb_real] at hi
    obtain ⟨h1, h2⟩ := hi
    rcases lt_trichotomy (Q.Qu i) 0 with h | h | h
    · exfalso
      have := (hk i).2.2 h
      rcases h2 with h2 | h2
      · exact h2 (by simp [ha, this])
      · exact h2 h
    · exact h
    · exfalso
      have := (hk i).2.1 h
      rcases h1 with h1 | h1
      · exact h1 (by simp [ha, this])
      · exact h1 h
  obtain ⟨r, hr, hx, hret, hfree⟩ := BoxQP.solve_at_kkt (L := L) (c := BoxQP.Config.default) (o := freshQP k) (a := a) hL hQ
    (fun i => by
      have := (hk i).1
      simp only [ha, Pi.sub_apply, Pi.zero_apply]
      constructor <;> linarith [this.1, this.2])
    (by norm_num [BoxQP.Config.default]) (by rw [hgr]; exact hflag)
  rw [hgr] at hfree
  have hz : ∀ (free : List (Fin k)) (B : Mat free.length n ℝ), free = r.obj.free → (scatterRows free B)ᵀ *ᵥ Q.Qu = 0 := by
    intro free B hf
    ext j
    show ∑ i, (scatterRows free B)ᵀ j i * Q.Qu i = 0
    refine sum_eq_zero fun i _ => ?_
    by_cases hi : i ∈ free
    · rw [hf, hfree, BoxQP.mem_idxs] at hi
      rw [hflag i (by simpa using hi), mul_zero]
    · rw [transpose_apply, scatterRows, dif_neg hi, zero_mul]
  rcases constrainedGains_out (L := L) Q lower upper u 0 with h | ⟨r', hr', h⟩
  · rw [hr] at h; cases h.2
  · have hrr : r' = r := by
      have := hr'.symm.trans hr
      simpa using this
    subst hrr
    have hx' : r'.x = 0 := hx
    rcases h with h | h | h
    · rcases hret with h5 | h5 <;> rw [h5] at h <;> exact absurd h.1 (by norm_num)
    · refine ⟨fun _ _ => 0, by rw [h.2.2, hx'], ?_⟩
      ext j
      show ∑ i, (0 : ℝ) * Q.Qu i = 0
      simp
    · refine ⟨_, by rw [h.2.2.2, hx'], hz _ _ rfl⟩

end OneStage

section Step
variable {n : ℕ} {m : ℕ → ℕ} {L : LLT ℝ} {cfg : Config ℝ} {N : ℕ} {S : Stages n m ℝ} {x0 : Vec n ℝ}
  {lim : (i : ℕ) → Vec (m i) ℝ × Vec (m i) ℝ}

/-- First-order optimality over the limits of the trajectory at which the derivatives `d` were taken: `p` is the costate. -/
def BoxKktAt (N : ℕ) (lim : (i : ℕ) → Vec (m i) ℝ × Vec (m i) ℝ) (c : Ctrl n m ℝ) (d : Derivs n m ℝ) : Prop :=
  ∃ p : ℕ → Vec n ℝ, p N = d.V.Vx ∧ ∀ j < N, p j = (d.L j).Lx + (d.F j).Fxᵀ *ᵥ p (j + 1) ∧
    BoxOptimal (lim j).1 (lim j).2 (c.u j) ((d.L j).Lu + (d.F j).Fuᵀ *ᵥ p (j + 1))

theorem initialK_zero {g : Gains n m ℝ} {i : ℕ} (h : i + 1 ≠ N → g.k (i + 1) = 0) : initialK N g i = 0 := by
  unfold initialK
  split
  · rfl
  · rename_i h1
    split
    · rename_i h2
      rw [h h1]
      have : ∀ {a b : ℕ} (e : a = b), (e ▸ (0 : Vec a ℝ) : Vec b ℝ) = 0 := by
        intro a b e; subst e; rfl
      exact this h2
    · rfl

/-- In a convex problem the regularised input Hessian is positive definite. -/
theorem calcQ_posDef {k : ℕ} {lambda : ℝ} (h0 : 0 ≤ lambda) {F : FDeriv n k ℝ} {Ld : LDeriv n k ℝ} {V : VDeriv n ℝ}
    (hV : V.Vxx.PosSemidef) (hR : Ld.Luu.PosDef) : (calcQ cfg lambda F Ld V).QuuF.PosDef := by
  have hVs := (posSemidef_iff.1 hV).1
  have hR := posDef_iff.1 hR
  refine posDef_iff.2 ⟨calcQ_QuuF_symm hVs hR.1, fun v hv => ?_⟩
  refine lt_of_lt_of_le ?_ (calcQ_quad_le h0 _ _ _ _)
  have := calcQ_quad (cfg := cfg) (lambda := lambda) F Ld V hVs 0 v
  simp only [mulVec_zero, zero_dotProduct, dotProduct_zero, zero_add, mul_zero, add_zero] at this
  rw [this]
  exact add_pos_of_pos_of_nonneg (hR.2 v hv) ((posSemidef_iff.1 hV).2 _)

/-- At a trajectory that satisfies the optimality conditions over the limits, the backward pass succeeds and all feedforward terms
vanish. -/
theorem bwLoop_kkt (hL : L.Exact) (hw : cfg.withConstraint = true) (hlim : S.lim = some lim) (h2 : cfg.useSecond = false)
    {c : Ctrl n m ℝ} {d : Derivs n m ℝ} {lambda : ℝ} (h0 : 0 ≤ lambda) (hc : ConvexModel N d)
    {p : ℕ → Vec n ℝ} (hp : ∀ j < N, p j = (d.L j).Lx + (d.F j).Fxᵀ *ᵥ p (j + 1) ∧
      BoxOptimal (lim j).1 (lim j).2 (c.u j) ((d.L j).Lu + (d.F j).Fuᵀ *ᵥ p (j + 1)))
    (i : ℕ) (hi : i ≤ N) (s : BwState n m ℝ) (hV : s.V.Vxx.PosSemidef) (hVx : s.V.Vx = p i)
    (hk : ∀ j, i ≤ j → j < N → s.gains.k j = 0) :
    ∃ b, bwLoop L N cfg S c d lambda i s = .ok (true, b) ∧ (∀ j < N, b.gains.k j = 0) ∧ b.dV0 = s.dV0 ∧ b.dV1 = s.dV1 := by
  induction i generalizing s with
  | zero => exact ⟨_, rfl, fun j hj => hk j (Nat.zero_le _) hj, rfl, rfl⟩
  | succ i ih =>
    have hVs := (posSemidef_iff.1 hV).1
    have hpd : (calcQ cfg lambda (d.F i) (d.L i) s.V).QuuF.PosDef := calcQ_posDef h0 hV (hc.input i (by omega))
    have hQu : (calcQ cfg lambda (d.F i) (d.L i) s.V).Qu = (d.L i).Lu + (d.F i).Fuᵀ *ᵥ p (i + 1) := by
      simp only [calcQ, mulVec_real, hVx]
    have hQx : (calcQ cfg lambda (d.F i) (d.L i) s.V).Qx = p i := by
      simp only [calcQ, mulVec_real, hVx]; exact (hp i (by omega)).1.symm
    have hg : ∃ K : Mat (m i) n ℝ, stageGains L N cfg S c s.gains i (calcQ cfg lambda (d.F i) (d.L i) s.V) = .ok (some (0, K)) ∧
        Kᵀ *ᵥ (calcQ cfg lambda (d.F i) (d.L i) s.V).Qu = 0 := by
      unfold stageGains
      split
      · rw [hlim]
        dsimp only
        rw [initialK_zero (fun hne => hk (i + 1) le_rfl (by omega))]
        exact constrainedGains_kkt hL hpd (by rw [hQu]; exact (hp i (by omega)).2)
      · rename_i hm
        have : m i = 0 := by omega
        have hE : IsEmpty (Fin (m i)) := by rw [this]; infer_instance
        refine ⟨fun _ _ => 0, rfl, ?_⟩
        ext j
        show ∑ r, (0 : ℝ) * (calcQ cfg lambda (d.F i) (d.L i) s.V).Qu r = 0
        simp
    obtain ⟨K, hg, hK⟩ := hg
    unfold bwLoop bwStage
    rw [if_neg (by simp [h2])]
    dsimp only
    rw [hg]
    obtain ⟨b, hb, hb1, hb2, hb3⟩ := ih (by omega)
      { V := updateV (calcQ cfg lambda (d.F i) (d.L i) s.V) 0 K
        dV0 := s.dV0 + FOps.dot 0 (calcQ cfg lambda (d.F i) (d.L i) s.V).Qu
        dV1 := s.dV1 + lit (1 / 2) * FOps.dot 0 (FOps.mulVec (calcQ cfg lambda (d.F i) (d.L i) s.V).Quu 0)
        gains := { k := Function.update s.gains.k i 0, K := Function.update s.gains.K i K } }
      (by
        refine posSemidef_iff.2 ⟨updateV_symm _ _ _, fun v => ?_⟩
        dsimp only
        rw [updateV_quad, calcQ_quad _ _ _ hVs]
        exact add_nonneg (hc.stage i (by omega) _ _) ((posSemidef_iff.1 hV).2 _))
      (by
        simp only [updateV, mulVec_real, mulVec_zero, add_zero, hK]
        exact hQx)
      (by
        intro j hj hjN
        rcases Nat.lt_or_eq_of_le hj with hj | rfl
        · simp only []
          rw [Function.update_of_ne (by omega)]
          exact hk j hj hjN
        · simp)
    refine ⟨b, hb, hb1, ?_, ?_⟩
    · rw [hb2]; simp
    · rw [hb3]; simp

theorem bwSearch_kkt (hL : L.Exact) (hw : cfg.withConstraint = true) (hlim : S.lim = some lim) (h2 : cfg.useSecond = false)
    {iter : ℕ} {s : Solver n m ℝ} (h0 : 0 ≤ s.lambda) (hc : ConvexModel N (calcDerivs N cfg S s.ctrl s.derivs))
    (hk : BoxKktAt N lim s.ctrl (calcDerivs N cfg S s.ctrl s.derivs)) :
    ∃ s2, bwSearch L N cfg S (startIter N cfg S iter s) = (s2, .ok true) ∧ s2.ctrl = s.ctrl ∧ s2.lambda = s.lambda ∧
      (∀ j < N, s2.gains.k j = 0) ∧ s2.dV0 = 0 ∧ s2.dV1 = 0 := by
  obtain ⟨p, hpN, hp⟩ := hk
  obtain ⟨b, hb, hb1, hb2, hb3⟩ := bwLoop_kkt (S := S) (lambda := s.lambda) hL hw hlim h2 h0 hc hp N le_rfl
    { V := (calcDerivs N cfg S s.ctrl s.derivs).V, dV0 := 0, dV1 := 0, gains := s.gains } hc.term hpN.symm (fun j h1 h2 => by omega)
  exact ⟨_, bwSearch_of_success (s := startIter N cfg S iter s) hb, rfl, rfl, hb1, hb2, hb3⟩

/-- A feasible trajectory that satisfies the optimality conditions over the limits minimises a convex linear-quadratic cost among all
trajectories within the limits, and no other one has the same cost. -/
theorem kkt_least {c c' : Ctrl n m ℝ} {d : Derivs n m ℝ} (hE : ExactModel N S c d) (hM : ConvexModel N d)
    (hk : BoxKktAt N lim c d) (hc : Consistent N S x0 c) (hc' : Consistent N S x0 c')
    (hin : ∀ j < N, ∀ r, (lim j).1 r ≤ c'.u j r ∧ c'.u j r ≤ (lim j).2 r) :
    totalCost N c ≤ totalCost N c' ∧ (totalCost N c' = totalCost N c → ∀ j < N, c'.u j = c.u j) := by
  obtain ⟨p, hpN, hp⟩ := hk
  let q : ℕ → ℝ := fun j => 1 / 2 * ((c'.x j - c.x j) ⬝ᵥ (d.L j).Lxx *ᵥ (c'.x j - c.x j) +
    2 * ((c'.x j - c.x j) ⬝ᵥ (d.L j).Lxu *ᵥ (c'.u j - c.u j)) + (c'.u j - c.u j) ⬝ᵥ (d.L j).Luu *ᵥ (c'.u j - c.u j))
  have hq : ∀ j ∈ range N, 0 ≤ q j := fun j hj => by
    have := hM.stage j (mem_range.1 hj) (c'.x j - c.x j) (c'.u j - c.u j)
    simp only [q]; linarith
  have hstep : ∀ j < N, c'.x (j + 1) - c.x (j + 1) =
      (d.F j).Fx *ᵥ (c'.x j - c.x j) + (d.F j).Fu *ᵥ (c'.u j - c.u j) := by
    intro j hj
    have hx : c'.x j = c.x j + (c'.x j - c.x j) := by abel
    have hu : c'.u j = c.u j + (c'.u j - c.u j) := by abel
    rw [hc'.step j hj, hc.step j hj]
    conv_lhs => rw [hx, hu, hE.dyn j hj]
    abel
  have hrun : ∀ j ∈ range N, p j ⬝ᵥ (c'.x j - c.x j) - p (j + 1) ⬝ᵥ (c'.x (j + 1) - c.x (j + 1)) + q j ≤
      c'.cost j - c.cost j := by
    intro j hj
    have hj := mem_range.1 hj
    have hx : c'.x j = c.x j + (c'.x j - c.x j) := by abel
    have hu : c'.u j = c.u j + (c'.u j - c.u j) := by abel
    have h1 : c'.cost j - c.cost j = (d.L j).val (c'.x j - c.x j) (c'.u j - c.u j) := by
      rw [hc'.run j hj, hc.run j hj]
      conv_lhs => rw [hx, hu, hE.run j hj]
      ring
    have h2 : 0 ≤ ((d.L j).Lu + (d.F j).Fuᵀ *ᵥ p (j + 1)) ⬝ᵥ (c'.u j - c.u j) := by
      refine sum_nonneg fun r _ => ?_
      have h3 := (hp j hj).2 r
      have h4 := hin j hj r
      rcases lt_trichotomy (((d.L j).Lu + (d.F j).Fuᵀ *ᵥ p (j + 1)) r) 0 with h | h | h
      · refine mul_nonneg_of_nonpos_of_nonpos h.le ?_
        rw [Pi.sub_apply, h3.2.2 h]; linarith
      · rw [h, zero_mul]
      · refine mul_nonneg h.le ?_
        rw [Pi.sub_apply, h3.2.1 h]; linarith
    rw [h1, hstep j hj]
    have h6 : p j ⬝ᵥ (c'.x j - c.x j) = (d.L j).Lx ⬝ᵥ (c'.x j - c.x j) + p (j + 1) ⬝ᵥ (d.F j).Fx *ᵥ (c'.x j - c.x j) := by
      conv_lhs => rw [(hp j hj).1]
      rw [add_dotProduct, tmul_dot]
    rw [add_dotProduct, tmul_dot] at h2
    rw [h6, dotProduct_add]
    simp only [LDeriv.val, q]
    linarith
  have hterm : p N ⬝ᵥ (c'.x N - c.x N) ≤ c'.cost N - c.cost N := by
    have hx : c'.x N = c.x N + (c'.x N - c.x N) := by abel
    have h1 : c'.cost N - c.cost N = d.V.val (c'.x N - c.x N) := by
      rw [hc'.term, hc.term]
      conv_lhs => rw [hx, hE.term]
      ring
    rw [h1, VDeriv.val, hpN]
    linarith [(posSemidef_iff.1 hM.term).2 (c'.x N - c.x N)]
  have hsum := sum_le_sum hrun
  rw [sum_add_distrib, sum_range_sub' (fun j => p j ⬝ᵥ (c'.x j - c.x j)), hc'.start, hc.start, sub_self, dotProduct_zero,
    sum_sub_distrib] at hsum
  have hq0 := sum_nonneg hq
  rw [totalCost_real, totalCost_real]
  refine ⟨by linarith, fun heq => ?_⟩
  have hz : ∀ j ∈ range N, q j = 0 := (sum_eq_zero_iff_of_nonneg hq).1 (le_antisymm (by linarith) hq0)
  have key : ∀ j ≤ N, c'.x j = c.x j ∧ ∀ i < j, c'.u i = c.u i := by
    intro j
    induction j with
    | zero => intro _; exact ⟨by rw [hc'.start, hc.start], fun i hi => by omega⟩
    | succ j ih =>
      intro hj
      obtain ⟨h1, h2⟩ := ih (by omega)
      have h3 := hz j (mem_range.2 (by omega))
      simp only [q, h1, sub_self, zero_dotProduct, mulVec_zero, mul_zero, zero_add] at h3
      have h4 : c'.u j = c.u j := by
        by_contra hne
        have := (posDef_iff.1 (hM.input j (by omega))).2 _ (sub_ne_zero.2 hne)
        linarith
      refine ⟨?_, fun i hi => ?_⟩
      · rw [hc'.step j (by omega), hc.step j (by omega), h1, h4]
      · rcases Nat.lt_succ_iff_lt_or_eq.1 hi with hi | rfl
        · exact h2 i hi
        · exact h4
  exact (key N le_rfl).2

end Step

end Nmpc.DDP
