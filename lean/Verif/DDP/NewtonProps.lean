import Verif.DDP.NewtonRegion

/-!
# C113: with affine dynamics DDP is Newton's method and converges quadratically near a solution
-/

namespace Nmpc.DDP

set_option linter.unusedSectionVars false

open Matrix Finset

section Loop
variable {n : ℕ} {m : ℕ → ℕ} {L : LLT ℝ} {N : ℕ} {cfg : Config ℝ} {S : Stages n m ℝ} {x0 : Vec n ℝ}
  {cs : Ctrl n m ℝ} {r ρ M : ℝ}

/-- The optimisation loop from a state near the solution with zero regularisation. -/
theorem newton_loop (hR : NewtonRegion N cfg S x0 cs r ρ M) (hL : L.Exact) (hw : cfg.withConstraint = false)
    (h2 : cfg.useSecond = false) (hlm : 0 < cfg.lambdaMin) (hk : 0 < cfg.kRelNormThre) (hlt : 0 < cfg.lambdaThre)
    {as : List ℝ} (ha : cfg.alphaList = 1 :: as) (hρ : 0 < ρ) (hM : 0 ≤ M) (hr1 : M * r ≤ 2 * ρ)
    (hr2 : 2 * (M * r) < 3 * ρ * (1 - cfg.costUpdateRatioThre)) (q iter : ℕ) {s : Solver n m ℝ} (h0 : s.lambda = 0)
    (hc : Consistent N S x0 s.ctrl) (hr : √(devSq N (devOf cs s.ctrl)) ≤ r) :
    ∃ st fin, (optLoop L N cfg S q iter s).1.trace = s.trace ++ (st ++ fin) ∧ (∀ e ∈ st, e.alpha = 1) ∧
      ((fin = [] ∧ (((optLoop L N cfg S q iter s).2 = .ok 0 ∧ st.length = q) ∨
          ((optLoop L N cfg S q iter s).2 = .ok 1 ∧ ∃ e, st.getLast? = some e ∧ e.actual < cfg.costUpdateThre))) ∨
        ∃ e, fin = [e] ∧ e.alpha = 0 ∧ e.kRelNorm < cfg.kRelNormThre ∧ (optLoop L N cfg S q iter s).2 = .ok 1) ∧
      M / (2 * ρ) * √(devSq N (devOf cs (optLoop L N cfg S q iter s).1.ctrl)) ≤
        (M / (2 * ρ) * √(devSq N (devOf cs s.ctrl))) ^ 2 ^ st.length := by
  induction q generalizing iter s with
  | zero => exact ⟨[], [], by simp [optLoop], by simp, .inl ⟨rfl, .inl ⟨rfl, rfl⟩⟩, by simp [optLoop]⟩
  | succ q ih =>
    rcases newton_iter hR hL hw h2 hlm hk hlt ha hρ hM hr1 hr2 (iter := iter) h0 hc hr with
      ⟨s', e, h3, h4, h5, h6, h7⟩ | ⟨s', v, e, h3, h4, h5, h6, h7, h8, h9⟩
    · refine ⟨[], [e], ?_, by simp, .inr ⟨e, rfl, h6, h7, ?_⟩, ?_⟩ <;> unfold optLoop <;> rw [h3]
      · exact h5
      · rfl
      · show _ * √(devSq N (devOf cs s'.ctrl)) ≤ _
        rw [h4]; simp
    · have hsq : M / (2 * ρ) * √(devSq N (devOf cs s'.ctrl)) ≤ (M / (2 * ρ) * √(devSq N (devOf cs s.ctrl))) ^ 2 := by
        have e1 : √(devSq N (devOf cs s'.ctrl)) ≤ M / (2 * ρ) * devSq N (devOf cs s.ctrl) := by
          refine le_of_mul_le_mul_left (h9.trans (le_of_eq ?_)) hρ
          field_simp
        rw [mul_pow, Real.sq_sqrt (devSq_nonneg _), pow_two, mul_assoc]
        exact mul_le_mul_of_nonneg_left e1 (by positivity)
      by_cases hv : e.actual < cfg.costUpdateThre
      · rw [if_pos hv] at h4
        subst h4
        refine ⟨[e], [], ?_, by simpa using h6, .inl ⟨rfl, .inr ⟨?_, e, rfl, hv⟩⟩, ?_⟩ <;> unfold optLoop <;> rw [h3]
        · exact h5
        · rfl
        · simpa using hsq
      · rw [if_neg hv] at h4
        subst h4
        have hr' : √(devSq N (devOf cs s'.ctrl)) ≤ r := by
          refine le_of_mul_le_mul_left (h9.trans ?_) hρ
          have e1 : devSq N (devOf cs s.ctrl) = √(devSq N (devOf cs s.ctrl)) * √(devSq N (devOf cs s.ctrl)) :=
            (Real.mul_self_sqrt (devSq_nonneg _)).symm
          have hD0 := Real.sqrt_nonneg (devSq N (devOf cs s.ctrl))
          rw [e1]
          have e2 : M * √(devSq N (devOf cs s.ctrl)) ≤ 2 * ρ := (mul_le_mul_of_nonneg_left hr hM).trans hr1
          nlinarith
        obtain ⟨st, fin, i1, i2, i3, i4⟩ := ih (iter + 1) h7 h8 hr'
        have heq : optLoop L N cfg S (q + 1) iter s = optLoop L N cfg S q (iter + 1) s' := by
          rw [optLoop, h3]; simp
        rw [heq]
        refine ⟨e :: st, fin, ?_, ?_, ?_, ?_⟩
        · rw [i1, h5]; simp
        · intro e' he'
          rcases List.mem_cons.1 he' with rfl | h
          · exact h6
          · exact i2 _ h
        · rcases i3 with ⟨j1, ⟨j2, j3⟩ | ⟨j2, e', j3, j4⟩⟩ | ⟨e', j1, j2, j3, j4⟩
          · exact .inl ⟨j1, .inl ⟨j2, by simp [j3]⟩⟩
          · refine .inl ⟨j1, .inr ⟨j2, e', ?_, j4⟩⟩
            rw [List.getLast?_cons, j3]; rfl
          · exact .inr ⟨e', j1, j2, j3, j4⟩
        · refine i4.trans ((pow_le_pow_left₀ (by positivity) hsq _).trans (le_of_eq ?_))
          rw [← pow_mul, List.length_cons, pow_succ']

end Loop

variable {n : ℕ} {md : ℝ → ℕ} {p : SmoothProblem n md} {L : LLT ℝ} {cfg : Config ℝ}
  {lim : Option ((t : ℝ) → Vec (md t) ℝ × Vec (md t) ℝ)}
  {dt t0 : ℝ} {o : Obj n ℝ} {x0 : Vec n ℝ} {us : List (Σ k : ℕ, Vec k ℝ)}
  {scratch : Scratch n (fun i => md (timeAt t0 dt i)) ℝ}

/-- State `i` of a trajectory (zero beyond its end). -/
noncomputable def stateOf (d : ControlData n ℝ) (i : ℕ) : Vec n ℝ := d.xs.getD i 0

/-- Input `i` of a trajectory of the problem (zero beyond its end). -/
noncomputable def inputOf (md : ℝ → ℕ) (t0 dt : ℝ) (d : ControlData n ℝ) (i : ℕ) : Vec (md (timeAt t0 dt i)) ℝ :=
  inputAt (m := fun i => md (timeAt t0 dt i)) d.us i

/-- Euclidean distance of two trajectories, over all states and inputs. -/
noncomputable def trajDist (md : ℝ → ℕ) (t0 dt : ℝ) (N : ℕ) (d d' : ControlData n ℝ) : ℝ :=
  √(∑ i ∈ range N, ((stateOf d' i - stateOf d i) ⬝ᵥ (stateOf d' i - stateOf d i) +
      (inputOf md t0 dt d' i - inputOf md t0 dt d i) ⬝ᵥ (inputOf md t0 dt d' i - inputOf md t0 dt d i)) +
    (stateOf d' N - stateOf d N) ⬝ᵥ (stateOf d' N - stateOf d N))

/-- Second-order model of the total cost around the trajectory `d`, at the trajectory `d'` (without the constant term). -/
noncomputable def SmoothProblem.model (p : SmoothProblem n md) (t0 dt : ℝ) (N : ℕ) (d d' : ControlData n ℝ) : ℝ :=
  ∑ i ∈ range N, (p.dl (timeAt t0 dt i) (stateOf d i) (inputOf md t0 dt d i)).val (stateOf d' i - stateOf d i)
      (inputOf md t0 dt d' i - inputOf md t0 dt d i) +
    (p.dφ (timeAt t0 dt N) (stateOf d N)).val (stateOf d' N - stateOf d N)

section Conv
variable {N : ℕ} {c c' : Ctrl n (fun i => md (timeAt t0 dt i)) ℝ}

theorem stateOf_out {i : ℕ} (hi : i ≤ N) : stateOf (c.out N) i = c.x i := by
  have h : i < N + 1 := by omega
  simp [stateOf, Ctrl.out, List.getD_eq_getElem?_getD, List.getElem?_range h]

theorem inputOf_out {i : ℕ} (hi : i < N) : inputOf md t0 dt (c.out N) i = c.u i := by
  have h1 : (c.out N).us[i]? = some ⟨md (timeAt t0 dt i), c.u i⟩ := out_us_get c hi
  simp only [inputOf, inputAt, h1, dif_pos]

theorem trajDist_out : trajDist md t0 dt N (c.out N) (c'.out N) = √(devSq N (devOf c c')) := by
  unfold trajDist devSq devOf
  rw [stateOf_out le_rfl, stateOf_out le_rfl]
  congr 2
  refine sum_congr rfl fun i hi => ?_
  have hi := mem_range.1 hi
  rw [stateOf_out hi.le, stateOf_out hi.le, inputOf_out hi, inputOf_out hi]

theorem model_out {b : Derivs n (fun i => md (timeAt t0 dt i)) ℝ} :
    p.model t0 dt N (c.out N) (c'.out N) = mdl N (calcDerivs N cfg (stagesOf p.callbacks lim t0 dt N) c b) (devOf c c') := by
  unfold SmoothProblem.model mdl devOf
  rw [stateOf_out le_rfl, stateOf_out le_rfl, smooth_V]
  congr 1
  refine sum_congr rfl fun i hi => ?_
  have hi := mem_range.1 hi
  rw [stateOf_out hi.le, stateOf_out hi.le, inputOf_out hi, inputOf_out hi, smooth_L c b hi]

end Conv

/-- The trajectory of the given inputs is the one the optimisation loop starts from. -/
theorem start_out {P : Callbacks n md} {d0 : ControlData n ℝ}
    (hd0 : IsTrajectory P t0 dt us.length x0 d0) (hu : d0.us = us) :
    (start P lim dt cfg t0 scratch x0 us).ctrl.out us.length = d0 := by
  obtain ⟨c0, hc0, hout⟩ := hd0.exists_ctrl (lim := lim)
  rw [← hout]
  refine consistent_ext (rollout_consistent _ _) hc0 fun j hj => ?_
  have h1 : inputOf md t0 dt (c0.out us.length) j = c0.u j := inputOf_out hj
  rw [← h1, hout, inputOf, hu]
  rfl

/-- **C113** Newton's method: `solve` with zero initial regularisation stops after one iteration (`max_iter = 1`); if the full step was
accepted, the resulting trajectory minimises the second-order model of the total cost around the trajectory of the given inputs
among all trajectories, and it is the only minimiser. -/
theorem C113_newton (hL : L.Exact) (hw : cfg.withConstraint = false) (h2 : cfg.useSecond = false) (h0 : cfg.initialLambda = 0)
    (hm : cfg.maxIter = 1) (hN : (us.length : ℤ) = cfg.horizon) (hd : DimsOk md t0 dt us)
    {d0 : ControlData n ℝ} (hd0 : IsTrajectory p.callbacks t0 dt us.length x0 d0) (hu : d0.us = us)
    (hsym : ∀ i < us.length, (p.dl (timeAt t0 dt i) (stateOf d0 i) (inputOf md t0 dt d0 i)).Lxx.IsSymm)
    (hconv : ∀ i < us.length, ∀ dx du,
      0 ≤ dx ⬝ᵥ (p.dl (timeAt t0 dt i) (stateOf d0 i) (inputOf md t0 dt d0 i)).Lxx *ᵥ dx +
        2 * (dx ⬝ᵥ (p.dl (timeAt t0 dt i) (stateOf d0 i) (inputOf md t0 dt d0 i)).Lxu *ᵥ du) +
        du ⬝ᵥ (p.dl (timeAt t0 dt i) (stateOf d0 i) (inputOf md t0 dt d0 i)).Luu *ᵥ du)
    (hinput : ∀ i < us.length, (p.dl (timeAt t0 dt i) (stateOf d0 i) (inputOf md t0 dt d0 i)).Luu.PosDef)
    (hterm : (p.dφ (timeAt t0 dt us.length) (stateOf d0 us.length)).Vxx.PosSemidef)
    {e0 e1 : Trace ℝ} (htr : (solve L p.callbacks lim dt cfg o t0 scratch x0 us).1.trace = [e0, e1]) (ha : e1.alpha = 1)
    (hacc : cfg.costUpdateRatioThre < e1.ratio) :
    ∀ d, IsTrajectory p.callbacks t0 dt us.length x0 d →
      p.model t0 dt us.length d0 (solve L p.callbacks lim dt cfg o t0 scratch x0 us).1.control ≤
        p.model t0 dt us.length d0 d ∧
      (p.model t0 dt us.length d0 d =
        p.model t0 dt us.length d0 (solve L p.callbacks lim dt cfg o t0 scratch x0 us).1.control →
        d = (solve L p.callbacks lim dt cfg o t0 scratch x0 us).1.control) := by
  have hst := start_out (lim := lim) (cfg := cfg) (scratch := scratch) hd0 hu
  have hcs : Consistent us.length (stagesOf p.callbacks lim t0 dt us.length) x0
      (start p.callbacks lim dt cfg t0 scratch x0 us).ctrl := rollout_consistent _ _
  rw [solve_valid hN hd] at htr ⊢
  have hfin : (final L p.callbacks lim dt cfg t0 scratch x0 us).1 =
      (procOnce L us.length cfg (stagesOf p.callbacks lim t0 dt us.length) 1 (start p.callbacks lim dt cfg t0 scratch x0 us)).1 := by
    rw [final, hm]
    show (optLoop L us.length cfg (stagesOf p.callbacks lim t0 dt us.length) 1 1 _).1 = _
    unfold optLoop
    generalize procOnce L us.length cfg _ 1 _ = q
    obtain ⟨s', v⟩ := q
    cases v with
    | ok v => dsimp only; split <;> rfl
    | _ => rfl
  have htr' : (final L p.callbacks lim dt cfg t0 scratch x0 us).1.trace = [e0, e1] := htr
  show ∀ d, _ → p.model t0 dt us.length d0 ((final L p.callbacks lim dt cfg t0 scratch x0 us).1.ctrl.out us.length) ≤ _ ∧
    (_ = p.model t0 dt us.length d0 ((final L p.callbacks lim dt cfg t0 scratch x0 us).1.ctrl.out us.length) →
      d = (final L p.callbacks lim dt cfg t0 scratch x0 us).1.ctrl.out us.length)
  rw [hfin] at htr' ⊢
  set S := stagesOf p.callbacks lim t0 dt us.length with hS
  set s := start p.callbacks lim dt cfg t0 scratch x0 us with hs
  have hs0 : s.lambda = 0 := h0
  have hst0 : ∃ e, s.trace = [e] := ⟨_, rfl⟩
  have hx : ∀ i ≤ us.length, stateOf d0 i = s.ctrl.x i := fun i hi => by rw [← hst]; exact stateOf_out hi
  have hv : ∀ i < us.length, inputOf md t0 dt d0 i = s.ctrl.u i := fun i hi => by rw [← hst]; exact inputOf_out hi
  have hconvm : ConvexModel us.length (calcDerivs us.length cfg S s.ctrl s.derivs) :=
    { stage := fun i hi => by rw [smooth_L s.ctrl s.derivs hi, ← hx i hi.le, ← hv i hi]; exact hconv i hi
      input := fun i hi => by rw [smooth_L s.ctrl s.derivs hi, ← hx i hi.le, ← hv i hi]; exact hinput i hi
      term := by rw [smooth_V, ← hx _ le_rfl]; exact hterm }
  have hA : AffModel us.length S s.ctrl (calcDerivs us.length cfg S s.ctrl s.derivs) :=
    { dyn := by
        intro i hi dx du
        rw [(smooth_F s.ctrl s.derivs hi).1, (smooth_F s.ctrl s.derivs hi).2]
        simp only [hS, stagesOf, SmoothProblem.callbacks, mulVec_add]
        abel
      symmX := fun i hi => by rw [smooth_L s.ctrl s.derivs hi, ← hx i hi.le, ← hv i hi]; exact hsym i hi
      symmU := fun i hi => (posDef_iff.1 (hconvm.input i hi)).1
      symmV := (posSemidef_iff.1 hconvm.term).1 }
  obtain ⟨s2, hb, hl, _⟩ := bwSearch_convex (L := L) (cfg := cfg) (S := S) hL hw h2
    (s := startIter us.length cfg S 1 s) (le_of_eq hs0.symm) hconvm
  have hl0 : s2.lambda = 0 := hl.trans hs0
  obtain ⟨hctrl, hder, _, V, h3, h4, _, _⟩ := bwSearch_chain hb
  rw [hl0, hder] at h4
  rw [hder] at h3
  obtain ⟨_, hf2, _⟩ := newton_facts hL hw hA h4 h3 hcs
  have hnn : ∀ j < us.length, ∀ v, 0 ≤ v ⬝ᵥ (Qat cfg 0 (calcDerivs us.length cfg S s.ctrl s.derivs) V j).Quu *ᵥ v := fun j hj v => by
    by_cases hv : v = 0
    · simp [hv]
    · exact ((posDef_iff.1 (h4.newton hL hw (by rw [h3]; exact hA.symmV) hA.symmU hj).1).2 v hv).le
  -- the control data after the iteration
  have hcand : (procOnce L us.length cfg S 1 s).1.ctrl = forwardPass us.length S s.ctrl s2.gains 1 := by
    obtain ⟨es, hes⟩ := hst0
    have he : (procOnce L us.length cfg S 1 s).1.trace = s.trace ++ [e1] := by
      obtain ⟨e', h5, _⟩ := procOnce_trace (L := L) (N := us.length) (cfg := cfg) (S := S) 1 s
      rw [h5, hes] at htr'
      have h6 : e' = e1 := by simpa using (List.cons.inj htr').2
      rw [h5, h6]
    obtain ⟨s3, hfs⟩ := entry_fromSearch he (by rw [ha]; exact one_ne_zero)
    have h5 := hfs.bw
    rw [hb] at h5
    cases h5
    obtain ⟨a, _, h6, h7⟩ := lineSearch_some s2 (by rw [← hfs.alpha, ha]; exact one_ne_zero)
    have ha1 : a = 1 := by rw [← h7, ← hfs.alpha, ha]
    subst ha1
    have hsucc : (lineSearch us.length cfg S s2).success = true := by
      have h8 : (tryAlpha us.length cfg S s2 1).success = ltb cfg.costUpdateRatioThre (tryAlpha us.length cfg S s2 1).ratio := rfl
      rw [h6, h8, ← h6, ← hfs.ratio]
      simpa using hacc
    have hout := procOnce_out (L := L) (N := us.length) (cfg := cfg) (S := S) 1 s
    generalize procOnce L us.length cfg S 1 s = q at hout he
    cases hout with
    | bwFail s3 hb' => rw [hb] at hb'; cases hb'
    | err s3 e he' hb' => rw [hb] at hb'; cases hb'; exact absurd rfl (he' _)
    | small s3 hb' hk' hl' =>
      exfalso
      have h9 : ({ Trace.new 1 with kRelNorm := kRelNorm us.length s3 } : Trace ℝ) = e1 := by simpa using he
      rw [← h9] at ha
      exact zero_ne_one ha
    | full s3 hb' hk' =>
      rw [hb] at hb'; cases hb'
      have hf := finishStep_out (N := us.length) (cfg := cfg) s.trace
        { Trace.new 1 with
          kRelNorm := kRelNorm us.length s2, alpha := (lineSearch us.length cfg S s2).alpha,
          actual := (lineSearch us.length cfg S s2).actual, expected := (lineSearch us.length cfg S s2).expected,
          ratio := (lineSearch us.length cfg S s2).ratio } (lineSearch us.length cfg S s2) s2
      generalize finishStep us.length cfg s.trace _ (lineSearch us.length cfg S s2) s2 = q at hf
      cases hf with
      | reject hs v hv => rw [hsucc] at hs; cases hs
      | accept hs v hv =>
        show (lineSearch us.length cfg S s2).cand = _
        rw [h6, ← show s2.ctrl = s.ctrl from hctrl]; rfl
  intro d hd
  obtain ⟨c', hc', rfl⟩ := hd.exists_ctrl (lim := lim)
  rw [hcand, ← hst, model_out (cfg := cfg) (lim := lim) (b := s.derivs), model_out (cfg := cfg) (lim := lim) (b := s.derivs), ← hS, hf2,
    mdl_newton hL hw hA h4 h3 hcs (devOf_isVar hA hcs hc')]
  have hsum := sum_nonneg (s := range us.length) fun j hj => hnn j (mem_range.1 hj)
    ((devOf s.ctrl c').u j - s2.gains.k j - s2.gains.K j *ᵥ (devOf s.ctrl c').x j)
  refine ⟨by linarith, fun heq => ?_⟩
  have hz : ∀ j < us.length, (devOf s.ctrl c').u j - s2.gains.k j - s2.gains.K j *ᵥ (devOf s.ctrl c').x j = 0 := by
    intro j hj
    by_contra hk
    have := (sum_eq_zero_iff_of_nonneg (fun j hj => hnn j (mem_range.1 hj)
      ((devOf s.ctrl c').u j - s2.gains.k j - s2.gains.K j *ᵥ (devOf s.ctrl c').x j))).1 (by linarith) j (mem_range.2 hj)
    exact absurd this (((posDef_iff.1 (h4.newton hL hw (by rw [h3]; exact hA.symmV) hA.symmU hj).1).2 _ hk).ne')
  have hF : Consistent us.length S x0 (forwardPass us.length S s.ctrl s2.gains 1) := forwardPass_consistent hcs.start
  have hxu : ∀ j ≤ us.length, c'.x j = (forwardPass us.length S s.ctrl s2.gains 1).x j ∧
      (j < us.length → c'.u j = (forwardPass us.length S s.ctrl s2.gains 1).u j) := by
    have hu' : ∀ j < us.length, c'.x j = (forwardPass us.length S s.ctrl s2.gains 1).x j →
        c'.u j = (forwardPass us.length S s.ctrl s2.gains 1).u j := by
      intro j hj hxj
      have := hz j hj
      rw [forwardPass_u, ← hxj, one_smul]
      simp only [devOf] at this
      calc c'.u j = (c'.u j - s.ctrl.u j - s2.gains.k j - s2.gains.K j *ᵥ (c'.x j - s.ctrl.x j)) +
            (s.ctrl.u j + s2.gains.k j + s2.gains.K j *ᵥ (c'.x j - s.ctrl.x j)) := by abel
        _ = _ := by rw [this, zero_add]
    intro j
    induction j with
    | zero => intro _; exact ⟨by rw [hc'.start, hF.start], fun hj => hu' 0 hj (by rw [hc'.start, hF.start])⟩
    | succ j ih =>
      intro hj
      have hxj : c'.x (j + 1) = (forwardPass us.length S s.ctrl s2.gains 1).x (j + 1) := by
        rw [hc'.step j (by omega), hF.step j (by omega), (ih (by omega)).1, (ih (by omega)).2 (by omega)]
      exact ⟨hxj, fun hj => hu' _ hj hxj⟩
  exact consistent_ext hc' hF fun j hj => (hxu j hj.le).2 hj

/-- **C113** Quadratic convergence: let `ds` be a trajectory of least cost in the ball of radius `r` around it, where the hypotheses
`Regular` hold.  If the trajectory of the given inputs lies in the ball, the initial regularisation is zero, the first step size is 1,
`M r ≤ 2 ρ` and `2 M r < 3 ρ (1 - cost_update_ratio_thre)`, then every iteration of `solve` accepts the full step, except that the last
one may stop because the relative norm of the feedforward terms is below its threshold; `solve` returns `true` unless all `max_iter`
iterations were accepted full steps; and after `k` steps the error `M dist / (2 ρ)` is at most its initial value to the power `2^k`. -/
theorem C113_quadratic (hL : L.Exact) (hw : cfg.withConstraint = false) (h2 : cfg.useSecond = false)
    (hlm : 0 < cfg.lambdaMin) (hk : 0 < cfg.kRelNormThre) (hlt : 0 < cfg.lambdaThre) {as : List ℝ}
    (ha : cfg.alphaList = 1 :: as) (h0 : cfg.initialLambda = 0) (hN : (us.length : ℤ) = cfg.horizon) (hd : DimsOk md t0 dt us)
    {ds : ControlData n ℝ} {r ρ M : ℝ} (hr : 0 < r) (hρ : 0 < ρ) (hM : 0 ≤ M) (hr1 : M * r ≤ 2 * ρ)
    (hr2 : 2 * (M * r) < 3 * ρ * (1 - cfg.costUpdateRatioThre))
    (hds : IsTrajectory p.callbacks t0 dt us.length x0 ds)
    (hp : p.Regular t0 dt us.length (stateOf ds) (inputOf md t0 dt ds) r ρ M)
    (hmin : ∀ d, IsTrajectory p.callbacks t0 dt us.length x0 d → trajDist md t0 dt us.length ds d ≤ r →
      ds.costs.sum ≤ d.costs.sum)
    {d0 : ControlData n ℝ} (hd0 : IsTrajectory p.callbacks t0 dt us.length x0 d0) (hu : d0.us = us)
    (hdist : trajDist md t0 dt us.length ds d0 ≤ r) :
    ∃ e0 st fin, (solve L p.callbacks lim dt cfg o t0 scratch x0 us).1.trace = e0 :: (st ++ fin) ∧ (∀ e ∈ st, e.alpha = 1) ∧
      ((fin = [] ∧ (((solve L p.callbacks lim dt cfg o t0 scratch x0 us).2 = .ok false ∧ st.length = cfg.maxIter.toNat) ∨
          ((solve L p.callbacks lim dt cfg o t0 scratch x0 us).2 = .ok true ∧
            ∃ e, st.getLast? = some e ∧ e.actual < cfg.costUpdateThre))) ∨
        ∃ e, fin = [e] ∧ e.alpha = 0 ∧ e.kRelNorm < cfg.kRelNormThre ∧
          (solve L p.callbacks lim dt cfg o t0 scratch x0 us).2 = .ok true) ∧
      M / (2 * ρ) * trajDist md t0 dt us.length ds (solve L p.callbacks lim dt cfg o t0 scratch x0 us).1.control ≤
        (M / (2 * ρ) * trajDist md t0 dt us.length ds d0) ^ 2 ^ st.length := by
  have hst := start_out (lim := lim) (cfg := cfg) (scratch := scratch) hd0 hu
  have hc0 : Consistent us.length (stagesOf p.callbacks lim t0 dt us.length) x0
      (start p.callbacks lim dt cfg t0 scratch x0 us).ctrl := rollout_consistent _ _
  obtain ⟨cs, hcs, rfl⟩ := hds.exists_ctrl (lim := lim)
  have hp' : p.Regular t0 dt us.length cs.x cs.u r ρ M := by
    have hx : ∀ i ≤ us.length, stateOf (cs.out us.length) i = cs.x i := fun i hi => stateOf_out hi
    have hv : ∀ i < us.length, inputOf md t0 dt (cs.out us.length) i = cs.u i := fun i hi => inputOf_out hi
    exact
      { run := fun i hi => by have := hp.run i hi; rwa [hx i hi.le, hv i hi] at this
        term := by have := hp.term; rwa [hx _ le_rfl] at this
        convex := fun i hi x u hxu => hp.convex i hi x u (by rwa [hx i hi.le, hv i hi])
        input := fun i hi x u hxu => hp.input i hi x u (by rwa [hx i hi.le, hv i hi])
        termConvex := fun x h => hp.termConvex x (by rwa [hx _ le_rfl])
        curv := fun x u h1 h2 => hp.curv x u (fun i hi => by rw [hx i hi.le, hv i hi]; exact h1 i hi) (by rwa [hx _ le_rfl]) }
  have hmin' : ∀ c, Consistent us.length (stagesOf p.callbacks lim t0 dt us.length) x0 c →
      √(devSq us.length (devOf cs c)) ≤ r → totalCost us.length cs ≤ totalCost us.length c := by
    intro c hc hr
    have := hmin _ (out_isTrajectory hc) (by rw [trajDist_out]; exact hr)
    rwa [totalCost_out, totalCost_out] at this
  have hR := smooth_region (cfg := cfg) hp' hr hM hcs hmin'
  have hdist' : √(devSq us.length (devOf cs (start p.callbacks lim dt cfg t0 scratch x0 us).ctrl)) ≤ r := by
    rw [← trajDist_out, hst]; exact hdist
  obtain ⟨st, fin, i1, i2, i3, i4⟩ := newton_loop hR hL hw h2 hlm hk hlt ha hρ hM hr1 hr2 cfg.maxIter.toNat 1
    (s := start p.callbacks lim dt cfg t0 scratch x0 us) h0 hc0 hdist'
  rw [solve_valid hN hd]
  refine ⟨_, st, fin, i1, i2, ?_, ?_⟩
  · have hres : ∀ v, (optLoop L us.length cfg (stagesOf p.callbacks lim t0 dt us.length) cfg.maxIter.toNat 1
        (start p.callbacks lim dt cfg t0 scratch x0 us)).2 = .ok v →
        (final L p.callbacks lim dt cfg t0 scratch x0 us).2.map (fun v => v == 1) = .ok (v == 1) := by
      intro v hv
      rw [final, hv]; rfl
    rcases i3 with ⟨j1, ⟨j2, j3⟩ | ⟨j2, e', j3, j4⟩⟩ | ⟨e', j1, j2, j3, j4⟩
    · exact .inl ⟨j1, .inl ⟨hres 0 j2, j3⟩⟩
    · exact .inl ⟨j1, .inr ⟨hres 1 j2, e', j3, j4⟩⟩
    · exact .inr ⟨e', j1, j2, j3, hres 1 j4⟩
  · show _ * trajDist md t0 dt us.length _ ((final L p.callbacks lim dt cfg t0 scratch x0 us).1.ctrl.out us.length) ≤ _
    rw [trajDist_out, ← hst, trajDist_out]
    exact i4

end Nmpc.DDP
