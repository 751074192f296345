import Verif.DDP.Convex

/-!
# C17 (all step sizes), C18: convex linear-quadratic problems without limits (exact arithmetic)
-/

namespace Nmpc.DDP

set_option linter.unusedSectionVars false

open Matrix Finset

/-! ## Trajectories as functions of the step -/

section Traj
variable {n : ℕ} {md : ℝ → ℕ} {P : Callbacks n md} {lim : Option ((t : ℝ) → Vec (md t) ℝ × Vec (md t) ℝ)}
  {t0 dt : ℝ} {N : ℕ} {x0 : Vec n ℝ}

/-- Every trajectory in the sense of the specification comes from consistent control data. -/
theorem IsTrajectory.exists_ctrl {d : ControlData n ℝ} (h : IsTrajectory P t0 dt N x0 d) :
    ∃ c : Ctrl n (fun i => md (timeAt t0 dt i)) ℝ, Consistent N (stagesOf P lim t0 dt N) x0 c ∧ c.out N = d := by
  let c : Ctrl n (fun i => md (timeAt t0 dt i)) ℝ :=
    { x := fun i => (d.xs[i]?).getD 0, u := inputAt d.us, cost := fun i => (d.costs[i]?).getD 0 }
  have hx : ∀ {i x}, d.xs[i]? = some x → c.x i = x := fun h => by simp [c, h]
  have hcost : ∀ {i x}, d.costs[i]? = some x → c.cost i = x := fun h => by simp [c, h]
  have hu : ∀ {i u}, d.us[i]? = some ⟨md (timeAt t0 dt i), u⟩ → c.u i = u := fun h => by simp [c, inputAt, h]
  refine ⟨c, ⟨hx h.start, ?_, ?_, ?_⟩, ?_⟩
  · intro i hi
    obtain ⟨x, u, h1, h2, h3, h4⟩ := h.step i hi
    rw [hx h3, hx h1, hu h2]; rfl
  · intro i hi
    obtain ⟨x, u, h1, h2, h3, h4⟩ := h.step i hi
    rw [hcost h4, hx h1, hu h2]; rfl
  · obtain ⟨x, h1, h2⟩ := h.term
    rw [hcost h2, hx h1]; rfl
  · obtain ⟨xs, us, costs⟩ := d
    simp only [Ctrl.out, ControlData.mk.injEq]
    have hgen : ∀ {β : Type} (l : List β) (k : ℕ) (f : ℕ → β), l.length = k → (∀ i x, l[i]? = some x → f i = x) →
        (List.range k).map f = l := by
      intro β l k f hl hf
      refine List.ext_getElem (by simp [hl]) ?_
      intro i h1 h2
      simp only [List.getElem_map, List.getElem_range]
      exact hf i _ (List.getElem?_eq_getElem h2)
    refine ⟨hgen _ _ _ h.lenX (fun i x => hx), hgen _ _ _ h.lenU ?_, hgen _ _ _ h.lenC (fun i x => hcost)⟩
    intro i q hq
    have hi : i < N := by
      have := (List.getElem?_eq_some_iff.1 hq).1
      have h2 : us.length = N := h.lenU
      omega
    obtain ⟨x, u, h1, h2, h3, h4⟩ := h.step i hi
    rw [show us[i]? = _ from h2] at hq
    cases hq
    exact congrArg _ (hu h2)

theorem listSum_real (l : List ℝ) : listSum l = l.sum := by
  rw [listSum, sum_real, ← List.sum_ofFn]
  congr 1
  exact List.ofFn_get l

theorem totalCost_out (c : Ctrl n (fun i => md (timeAt t0 dt i)) ℝ) : (c.out N).costs.sum = totalCost N c := by
  rw [← listSum_real, listSum_out]

theorem out_congr {m : ℕ → ℕ} {c c' : Ctrl n m ℝ} (hx : ∀ j ≤ N, c.x j = c'.x j) (hu : ∀ j < N, c.u j = c'.u j)
    (hc : ∀ j ≤ N, c.cost j = c'.cost j) : c.out N = c'.out N := by
  simp only [Ctrl.out, ControlData.mk.injEq]
  refine ⟨?_, ?_, ?_⟩
  · exact List.map_congr_left fun i hi => hx i (by have := List.mem_range.1 hi; omega)
  · exact List.map_congr_left fun i hi => by rw [hu i (List.mem_range.1 hi)]
  · exact List.map_congr_left fun i hi => hc i (by have := List.mem_range.1 hi; omega)

/-- The input list of control data whose inputs are the given ones. -/
theorem out_us {us : List (Σ k : ℕ, Vec k ℝ)} {c : Ctrl n (fun i => md (timeAt t0 dt i)) ℝ} (hd : DimsOk md t0 dt us)
    (h : c.u = inputAt us) : (c.out us.length).us = us := by
  show (List.range us.length).map _ = us
  refine List.ext_getElem (by simp) ?_
  intro i h8 h9
  rw [List.getElem_map, List.getElem_range, h]
  exact inputAt_eq (m := fun i => md (timeAt t0 dt i)) h9 (hd i h9)

end Traj

/-! ## One iteration -/

section Step
variable {n : ℕ} {m : ℕ → ℕ} {L : LLT ℝ} {cfg : Config ℝ} {N : ℕ} {S : Stages n m ℝ} {x0 : Vec n ℝ}

/-- Sum of the squares removed by a Newton step. -/
noncomputable def gain (N : ℕ) (cfg : Config ℝ) (d : Derivs n m ℝ) (V : ℕ → VDeriv n ℝ) (g : Gains n m ℝ) : ℝ :=
  1 / 2 * ∑ j ∈ range N, g.k j ⬝ᵥ (Qat cfg 0 d V j).Quu *ᵥ g.k j

/-- What a successful backward pass with zero regularisation provides for a linear-quadratic problem. -/
structure NewtonStep (N : ℕ) (cfg : Config ℝ) (S : Stages n m ℝ) (x0 : Vec n ℝ) (c : Ctrl n m ℝ) (s2 : Solver n m ℝ)
    (G : ℝ) : Prop where
  ctrl : s2.ctrl = c
  dV0 : s2.dV0 = -(2 * G)
  dV1 : s2.dV1 = G
  nonneg : 0 ≤ G
  zero : G = 0 → ∀ j < N, s2.gains.k j = 0
  cand : ∀ a, totalCost N (forwardPass N S c s2.gains a) = totalCost N c - G + (a - 1) ^ 2 * G
  least : ∀ c', Consistent N S x0 c' → totalCost N c - G ≤ totalCost N c'
  unique : ∀ c', Consistent N S x0 c' → totalCost N c' = totalCost N c - G →
    ∀ j < N, c'.u j = c.u j + s2.gains.k j + s2.gains.K j *ᵥ (c'.x j - c.x j)

theorem newtonStep (hL : L.Exact) (hw : cfg.withConstraint = false) {iter : ℕ} {s s2 : Solver n m ℝ}
    (hb : bwSearch L N cfg S (startIter N cfg S iter s) = (s2, .ok true)) (h0 : s2.lambda = 0)
    (hE : ExactModel N S s.ctrl (calcDerivs N cfg S s.ctrl s.derivs)) (hc : Consistent N S x0 s.ctrl) :
    ∃ G, NewtonStep N cfg S x0 s.ctrl s2 G := by
  obtain ⟨h1, h2, _, V, h3, h4, h5, h6⟩ := bwSearch_chain hb
  rw [h2] at h3 h4 h5 h6
  rw [h0] at h4 h5 h6
  have hVs : (V N).Vxx.IsSymm := by rw [h3]; exact hE.symmV
  set d := calcDerivs N cfg S s.ctrl s.derivs with hd
  have hN : ∀ j < N, _ := fun j hj => h4.newton hL hw hVs hE.symmL hj
  have hG : gain N cfg d V s2.gains = 1 / 2 * ∑ j ∈ range N, s2.gains.k j ⬝ᵥ (Qat cfg 0 d V j).Quu *ᵥ s2.gains.k j := rfl
  have hnn : ∀ j < N, ∀ v, 0 ≤ v ⬝ᵥ (Qat cfg 0 d V j).Quu *ᵥ v := fun j hj v => by
    by_cases hv : v = 0
    · simp [hv]
    · exact ((posDef_iff.1 (hN j hj).1).2 v hv).le
  have hz : ∀ f : (j : ℕ) → Vec (m j) ℝ, ∑ j ∈ range N, f j ⬝ᵥ (Qat cfg 0 d V j).Quu *ᵥ f j = 0 → ∀ j < N, f j = 0 := by
    intro f hf j hj
    by_contra hk
    have := (sum_eq_zero_iff_of_nonneg (fun j hj => hnn j (mem_range.1 hj) (f j))).1 hf j (mem_range.2 hj)
    exact absurd this (((posDef_iff.1 (hN j hj).1).2 _ hk).ne')
  have hid := fun c' hc' => lq_newton (c' := c') hL hw hE h4 h3 hc hc'
  rw [← hG] at hid
  refine ⟨gain N cfg d V s2.gains, h1, ?_, ?_, ?_, ?_, ?_, ?_, ?_⟩
  · rw [h5, hG, ← mul_assoc, mul_sum, ← sum_neg_distrib]
    refine sum_congr rfl fun j hj => ?_
    have hq : (Qat cfg 0 d V j).Qu = -((Qat cfg 0 d V j).Quu *ᵥ s2.gains.k j) := by
      rw [(hN j (mem_range.1 hj)).2.1, neg_neg]
    rw [hq, dotProduct_neg]
    ring
  · rw [h6, hG, mul_sum]
  · rw [hG]
    exact mul_nonneg (by norm_num) (sum_nonneg fun j hj => hnn j (mem_range.1 hj) _)
  · intro h
    rw [hG] at h
    exact hz _ (by linarith)
  · intro a
    have := hid _ (forwardPass_consistent (g := s2.gains) (a := a) hc.start)
    simp only [polErr_forwardPass] at this
    have h7 : ∑ j ∈ range N, (((a - 1) • s2.gains.k j) ⬝ᵥ (Qat cfg 0 d V j).Quu *ᵥ ((a - 1) • s2.gains.k j)) =
        (a - 1) ^ 2 * ∑ j ∈ range N, s2.gains.k j ⬝ᵥ (Qat cfg 0 d V j).Quu *ᵥ s2.gains.k j := by
      rw [mul_sum]
      refine sum_congr rfl fun j _ => ?_
      rw [mulVec_smul, dotProduct_smul, smul_dotProduct, smul_eq_mul, smul_eq_mul]
      ring
    rw [h7] at this
    rw [show (1 : ℝ) / 2 * ((a - 1) ^ 2 * ∑ j ∈ range N, s2.gains.k j ⬝ᵥ (Qat cfg 0 d V j).Quu *ᵥ s2.gains.k j) =
      (a - 1) ^ 2 * gain N cfg d V s2.gains by rw [hG]; ring] at this
    linarith
  · intro c' hc'
    have := hid c' hc'
    have h8 : 0 ≤ ∑ j ∈ range N, polErr s.ctrl c' s2.gains j ⬝ᵥ (Qat cfg 0 d V j).Quu *ᵥ polErr s.ctrl c' s2.gains j :=
      sum_nonneg fun j hj => hnn j (mem_range.1 hj) _
    linarith
  · intro c' hc' heq j hj
    have := hid c' hc'
    have h9 := hz (polErr s.ctrl c' s2.gains) (by linarith) j hj
    rw [polErr] at h9
    have : c'.u j = (c'.u j - s.ctrl.u j - s2.gains.k j - s2.gains.K j *ᵥ (c'.x j - s.ctrl.x j)) +
      (s.ctrl.u j + s2.gains.k j + s2.gains.K j *ᵥ (c'.x j - s.ctrl.x j)) := by abel
    rw [this, h9, zero_add]

theorem NewtonStep.exact {c : Ctrl n m ℝ} {s2 : Solver n m ℝ} {G : ℝ} (h : NewtonStep N cfg S x0 c s2 G) (a : ℝ) :
    (tryAlpha N cfg S s2 a).actual = (tryAlpha N cfg S s2 a).expected := by
  rw [(tryAlpha_real s2 a).1, (tryAlpha_real s2 a).2, h.ctrl, h.cand, h.dV0, h.dV1]
  ring

/-- The full step is the unique minimiser. -/
theorem NewtonStep.minimiser {c : Ctrl n m ℝ} {s2 : Solver n m ℝ} {G : ℝ} (h : NewtonStep N cfg S x0 c s2 G)
    (hc : Consistent N S x0 c) {c' : Ctrl n m ℝ} (hc' : Consistent N S x0 c') :
    totalCost N (forwardPass N S c s2.gains 1) ≤ totalCost N c' ∧
    (totalCost N c' = totalCost N (forwardPass N S c s2.gains 1) → c'.out N = (forwardPass N S c s2.gains 1).out N) := by
  have hF : totalCost N (forwardPass N S c s2.gains 1) = totalCost N c - G := by rw [h.cand]; ring
  refine ⟨hF ▸ h.least c' hc', fun heq => ?_⟩
  have hu := h.unique c' hc' (heq.trans hF)
  have hF' : Consistent N S x0 (forwardPass N S c s2.gains 1) := forwardPass_consistent hc.start
  have hx : ∀ j ≤ N, c'.x j = (forwardPass N S c s2.gains 1).x j := by
    intro j
    induction j with
    | zero => intro _; rw [hc'.start, hF'.start]
    | succ j ih =>
      intro hj
      rw [hc'.step j (by omega), hF'.step j (by omega), hu j (by omega), forwardPass_u, ih (by omega), one_smul]
  have hu' : ∀ j < N, c'.u j = (forwardPass N S c s2.gains 1).u j := by
    intro j hj
    rw [hu j hj, forwardPass_u, hx j hj.le, one_smul]
  refine out_congr hx hu' ?_
  intro j hj
  rcases Nat.lt_or_eq_of_le hj with hj | rfl
  · rw [hc'.run j hj, hF'.run j hj, hx j hj.le, hu' j hj]
  · rw [hc'.term, hF'.term, hx _ le_rfl]

theorem reaches_lambda {s0 s : Solver n m ℝ} {k : ℕ}
    (h0 : ∃ e, s0.trace.getLast? = some e ∧ e.lambda = s0.lambda) (h : Reaches L N cfg S s0 k s) :
    ∃ e, s.trace.getLast? = some e ∧ e.lambda = s.lambda := by
  cases h with
  | start => exact h0
  | @next k t _ h1 h2 =>
    obtain ⟨e, h3, _, h4, _⟩ := completed_cost (completed_of_continue (by rw [h2] : (procOnce L N cfg S k t).2 = .ok 0))
    rw [h2] at h3 h4
    exact ⟨e, by rw [h3, List.getLast?_concat], h4⟩

end Step

variable {n : ℕ} {md : ℝ → ℕ} {p : LQProblem n md} {L : LLT ℝ} {cfg : Config ℝ}
  {lim : Option ((t : ℝ) → Vec (md t) ℝ × Vec (md t) ℝ)}
  {dt t0 : ℝ} {o : Obj n ℝ} {x0 : Vec n ℝ} {us : List (Σ k : ℕ, Vec k ℝ)}
  {scratch : Scratch n (fun i => md (timeAt t0 dt i)) ℝ}

theorem lq_convexModel {N : ℕ} (hp : p.Convex) (c : Ctrl n (fun i => md (timeAt t0 dt i)) ℝ)
    (d : Derivs n (fun i => md (timeAt t0 dt i)) ℝ) :
    ConvexModel N (calcDerivs N cfg (stagesOf p.callbacks lim t0 dt N) c d) where
  stage i hi dx du := by
    simp only [calcDerivs, if_pos hi]
    exact hp.stage _ dx du
  input i hi := by
    simp only [calcDerivs, if_pos hi]
    exact hp.input _
  term := hp.term _

/-- **C17** For a convex linear-quadratic problem without limits, if the regularisation coefficient recorded by the
previous entry is zero, the expected update of the cost is exact for whatever step size was tried last. -/
theorem C17_any_step (hL : L.Exact) (hp : p.Convex) (hw : cfg.withConstraint = false) (h2 : cfg.useSecond = false)
    (hN : (us.length : ℤ) = cfg.horizon) (hd : DimsOk md t0 dt us) (i : ℕ) (e e' : Trace ℝ)
    (he : (solve L p.callbacks lim dt cfg o t0 scratch x0 us).1.trace[i]? = some e)
    (he' : (solve L p.callbacks lim dt cfg o t0 scratch x0 us).1.trace[i + 1]? = some e')
    (h0 : e.lambda = 0) (ha : e'.alpha ≠ 0) : e'.actual = e'.expected := by
  obtain ⟨h1, s, s2, hr, hc, ht, hs⟩ := solve_entry hN hd he' ha
  obtain ⟨e0, h3, h4⟩ := reaches_lambda ⟨_, rfl, rfl⟩ hr
  have hlast : s.trace.getLast? = some e := by
    rw [ht, List.getLast?_eq_getElem?]
    have hlen : i + 1 < (solve L p.callbacks lim dt cfg o t0 scratch x0 us).1.trace.length :=
      (List.getElem?_eq_some_iff.1 he').1
    rw [List.length_take, min_eq_left (by omega), Nat.add_sub_cancel, List.getElem?_take_of_lt (by omega)]
    exact he
  rw [h3] at hlast
  cases hlast
  have hsl : s.lambda = 0 := by rw [← h4, h0]
  obtain ⟨s3, hb, hl, _⟩ := bwSearch_convex (L := L) (cfg := cfg) (S := stagesOf p.callbacks lim t0 dt us.length) hL hw h2
    (s := startIter us.length cfg (stagesOf p.callbacks lim t0 dt us.length) (i + 1) s) (le_of_eq hsl.symm)
    (lq_convexModel hp _ _)
  rw [hs.bw] at hb
  cases hb
  obtain ⟨G, hG⟩ := newtonStep hL hw hs.bw (hl.trans hsl) (lq_exactModel _ _) hc
  obtain ⟨a, _, h5, _⟩ := lineSearch_some s2 (by rw [← hs.alpha]; exact ha)
  rw [hs.actual, hs.expected, h5]
  exact hG.exact a

/-- `c` has the least total cost of all trajectories, and no other trajectory has the same cost. -/
def IsLeast' {m : ℕ → ℕ} (N : ℕ) (S : Stages n m ℝ) (x0 : Vec n ℝ) (c : Ctrl n m ℝ) : Prop :=
  ∀ c', Consistent N S x0 c' → totalCost N c ≤ totalCost N c' ∧ (totalCost N c' = totalCost N c → c'.out N = c.out N)

/-- One iteration with zero regularisation. -/
theorem lq_iteration (hL : L.Exact) (hp : p.Convex) (hw : cfg.withConstraint = false) (h2 : cfg.useSecond = false)
    (hlm : 0 < cfg.lambdaMin) (hk : 0 < cfg.kRelNormThre) (hlt : 0 < cfg.lambdaThre) {as : List ℝ}
    (ha : cfg.alphaList = 1 :: as) (hr : cfg.costUpdateRatioThre < 1) {N iter : ℕ}
    {s : Solver n (fun i => md (timeAt t0 dt i)) ℝ} (h0 : s.lambda = 0)
    (hc : Consistent N (stagesOf p.callbacks lim t0 dt N) x0 s.ctrl) :
    (∃ s' e, procOnce L N cfg (stagesOf p.callbacks lim t0 dt N) iter s = (s', .ok 1) ∧ s'.ctrl = s.ctrl ∧
      s'.trace = s.trace ++ [e] ∧ e.kRelNorm < cfg.kRelNormThre) ∨
    (¬ IsLeast' N (stagesOf p.callbacks lim t0 dt N) x0 s.ctrl ∧
      ∃ s' v, procOnce L N cfg (stagesOf p.callbacks lim t0 dt N) iter s = (s', .ok v) ∧ (v = 0 ∨ v = 1) ∧
        s'.lambda = 0 ∧ Consistent N (stagesOf p.callbacks lim t0 dt N) x0 s'.ctrl ∧
        IsLeast' N (stagesOf p.callbacks lim t0 dt N) x0 s'.ctrl) := by
  set S := stagesOf p.callbacks lim t0 dt N with hS
  obtain ⟨s2, hb, hl, _⟩ := bwSearch_convex (L := L) (cfg := cfg) (S := S) hL hw h2
    (s := startIter N cfg S iter s) (le_of_eq h0.symm) (lq_convexModel hp _ _)
  have hl0 : s2.lambda = 0 := hl.trans h0
  obtain ⟨G, hG⟩ := newtonStep hL hw hb hl0 (lq_exactModel _ _) hc
  have hout := procOnce_out (L := L) (N := N) (cfg := cfg) (S := S) iter s
  generalize procOnce L N cfg S iter s = r at hout
  cases hout with
  | bwFail s3 hb' => rw [hb] at hb'; cases hb'
  | err s3 e he hb' => rw [hb] at hb'; cases hb'; exact absurd rfl (he _)
  | small s3 hb' hk' hl' =>
    rw [hb] at hb'; cases hb'
    exact .inl ⟨_, _, rfl, hG.ctrl, rfl, by simpa using hk'⟩
  | full s3 hb' hk' =>
    rw [hb] at hb'; cases hb'
    right
    have hGpos : 0 < G := by
      rcases hG.nonneg.lt_or_eq with h | h
      · exact h
      · exfalso
        apply hk'
        rw [kRelNorm_zero (hG.zero h.symm), hl0]
        exact ⟨by simpa using hk, by simpa using hlt⟩
    have hex : (tryAlpha N cfg S s2 1).expected = G := by
      rw [(tryAlpha_real s2 1).2, hG.dV0, hG.dV1]; ring
    have hac : (tryAlpha N cfg S s2 1).actual = G := by rw [hG.exact, hex]
    have hratio : (tryAlpha N cfg S s2 1).ratio = 1 := by
      have h1 : (tryAlpha N cfg S s2 1).ratio = if ltb (tryAlpha N cfg S s2 1).expected 0 then
          (if leb 0 (tryAlpha N cfg S s2 1).actual then 1 else -1)
        else (tryAlpha N cfg S s2 1).actual / (tryAlpha N cfg S s2 1).expected := rfl
      rw [h1, hex, hac, if_neg (by simpa using hGpos.le), div_self hGpos.ne']
    have hsucc : (tryAlpha N cfg S s2 1).success = true := by
      have h1 : (tryAlpha N cfg S s2 1).success = ltb cfg.costUpdateRatioThre (tryAlpha N cfg S s2 1).ratio := rfl
      rw [h1, hratio]; simpa using hr
    have hls : lineSearch N cfg S s2 = tryAlpha N cfg S s2 1 := by
      unfold lineSearch
      rw [ha]
      unfold tryAlphas
      simp only [hsucc, if_true]
    have hcand : (lineSearch N cfg S s2).cand = forwardPass N S s.ctrl s2.gains 1 := by rw [hls, ← hG.ctrl]; rfl
    refine ⟨?_, ?_⟩
    · intro hmin
      have := (hmin _ (forwardPass_consistent (g := s2.gains) (a := 1) hc.start)).1
      rw [hG.cand] at this
      linarith
    · have hf := finishStep_out (N := N) (cfg := cfg) s.trace
        { Trace.new iter with
          kRelNorm := kRelNorm N s2, alpha := (lineSearch N cfg S s2).alpha, actual := (lineSearch N cfg S s2).actual,
          expected := (lineSearch N cfg S s2).expected, ratio := (lineSearch N cfg S s2).ratio } (lineSearch N cfg S s2) s2
      generalize finishStep N cfg s.trace _ (lineSearch N cfg S s2) s2 = q at hf
      cases hf with
      | reject hs v hv => rw [hls, hsucc] at hs; cases hs
      | accept hs v hv =>
        refine ⟨_, v, rfl, ?_, ?_, ?_, ?_⟩
        · rw [hv]; split
          · exact .inr rfl
          · exact .inl rfl
        · show (if leb cfg.lambdaMin s2.lambda then _ else (0 : ℝ)) = 0
          rw [hl0, if_neg (by simpa using hlm)]
        · show Consistent N S x0 (lineSearch N cfg S s2).cand
          rw [hcand]; exact forwardPass_consistent hc.start
        · show IsLeast' N S x0 (lineSearch N cfg S s2).cand
          rw [hcand]
          intro c' hc'
          exact hG.minimiser hc hc'

/-- **C18** On a convex linear-quadratic problem without limits, with zero initial regularisation, a first step size of 1
and at least two iterations, `solve` returns `true`, and `controlData()` is the unique minimiser of the total cost among
all trajectories from the given state; the only exception is that the given inputs are returned unchanged if already the first
iteration finds a relative feedforward norm below the threshold. -/
theorem C18_solve (hL : L.Exact) (hp : p.Convex) (hw : cfg.withConstraint = false) (h2 : cfg.useSecond = false)
    (hlm : 0 < cfg.lambdaMin) (hk : 0 < cfg.kRelNormThre) (hlt : 0 < cfg.lambdaThre) {as : List ℝ}
    (ha : cfg.alphaList = 1 :: as) (hr : cfg.costUpdateRatioThre < 1) (h0 : cfg.initialLambda = 0)
    (hm : 2 ≤ cfg.maxIter) (hN : (us.length : ℤ) = cfg.horizon) (hd : DimsOk md t0 dt us) :
    (solve L p.callbacks lim dt cfg o t0 scratch x0 us).2 = .ok true ∧
    ((∀ d, IsTrajectory p.callbacks t0 dt us.length x0 d →
        (solve L p.callbacks lim dt cfg o t0 scratch x0 us).1.control.costs.sum ≤ d.costs.sum ∧
        (d.costs.sum = (solve L p.callbacks lim dt cfg o t0 scratch x0 us).1.control.costs.sum →
          d = (solve L p.callbacks lim dt cfg o t0 scratch x0 us).1.control)) ∨
      ((solve L p.callbacks lim dt cfg o t0 scratch x0 us).1.control.us = us ∧
        ∃ e0 e1, (solve L p.callbacks lim dt cfg o t0 scratch x0 us).1.trace = [e0, e1] ∧
          e1.kRelNorm < cfg.kRelNormThre)) := by
  rw [solve_valid hN hd]
  dsimp only
  have hmin : ∀ c, IsLeast' us.length (stagesOf p.callbacks lim t0 dt us.length) x0 c →
      ∀ d, IsTrajectory p.callbacks t0 dt us.length x0 d →
        (c.out us.length).costs.sum ≤ d.costs.sum ∧
        (d.costs.sum = (c.out us.length).costs.sum → d = c.out us.length) := by
    intro c hc d hd
    obtain ⟨c', h1, rfl⟩ := hd.exists_ctrl (lim := lim)
    rw [totalCost_out, totalCost_out]
    exact hc c' h1
  obtain ⟨r, hr2⟩ : ∃ r, cfg.maxIter.toNat = r + 1 + 1 := ⟨cfg.maxIter.toNat - 2, by omega⟩
  rw [final, hr2]
  have hc0 : Consistent us.length (stagesOf p.callbacks lim t0 dt us.length) x0
      (start p.callbacks lim dt cfg t0 scratch x0 us).ctrl := rollout_consistent _ _
  rcases lq_iteration (L := L) (lim := lim) (iter := 1) hL hp hw h2 hlm hk hlt ha hr h0 hc0 with
    ⟨s', e, h3, h4, h5, h6⟩ | ⟨_, s', v, h3, h4, h5, h6, h7⟩
  · unfold optLoop
    rw [h3]
    refine ⟨rfl, .inr ⟨?_, _, e, h5, h6⟩⟩
    exact out_us (c := s'.ctrl) hd (by rw [h4]; rfl)
  · rcases h4 with rfl | rfl
    · rcases lq_iteration (L := L) (lim := lim) (iter := 1 + 1) hL hp hw h2 hlm hk hlt ha hr h5 h6 with
        ⟨s'', e, h8, h9, _⟩ | ⟨h8, _⟩
      · unfold optLoop
        rw [h3]
        simp only [ne_eq, not_true_eq_false, if_false]
        unfold optLoop
        rw [h8]
        refine ⟨rfl, .inl ?_⟩
        rw [← h9] at h7
        exact hmin _ h7
      · exact absurd h7 h8
    · unfold optLoop
      rw [h3]
      exact ⟨rfl, .inl (hmin _ h7)⟩

end Nmpc.DDP
