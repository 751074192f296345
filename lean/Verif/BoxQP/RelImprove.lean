import Verif.BoxQP.Newton
import Mathlib.Algebra.QuadraticDiscriminant
import Mathlib.Tactic.FinCases

/-!
# C89: what the relative-improvement exit of BoxQP certifies

Code 4 is returned when the last accepted step changed the objective by less than `rel_improve_thre * |old_obj|`.
-/

namespace Nmpc.BoxQP

open Matrix

variable {n : ℕ} {L : LLT ℝ} {c : Config ℝ} {a : Args n ℝ} {o : Obj n ℝ} {r : Result n ℝ}

/-! ## After a full step inside the box -/

theorem psd_cauchy {H : Mat n n ℝ} (hH : H.PosSemidef) (u w : Vec n ℝ) :
    (u ⬝ᵥ (H *ᵥ w)) ^ 2 ≤ (u ⬝ᵥ (H *ᵥ u)) * (w ⬝ᵥ (H *ᵥ w)) := by
  rw [posSemidef_iff] at hH
  have h : ∀ t : ℝ, 0 ≤ (w ⬝ᵥ (H *ᵥ w)) * (t * t) + (2 * (u ⬝ᵥ (H *ᵥ w))) * t + u ⬝ᵥ (H *ᵥ u) := by
    intro t
    have h1 := hH.2 (u + t • w)
    have h2 := symm_dot hH.1 w u
    simp only [Matrix.mulVec_add, Matrix.mulVec_smul, dotProduct_add, add_dotProduct, dotProduct_smul, smul_dotProduct,
      smul_eq_mul] at h1
    rw [h2] at h1
    linarith
  have h3 := discrim_le_zero h
  rw [discrim] at h3
  linarith

/-- `‖H d‖² ≤ trace(H) dᵀH d` for positive semidefinite `H`. -/
theorem mulVec_sq_le {H : Mat n n ℝ} (hH : H.PosSemidef) (d : Vec n ℝ) :
    (H *ᵥ d) ⬝ᵥ (H *ᵥ d) ≤ H.trace * (d ⬝ᵥ (H *ᵥ d)) := by
  rw [Matrix.trace, Finset.sum_mul]
  refine Finset.sum_le_sum fun i _ => ?_
  have h := psd_cauchy hH (Pi.single i 1) d
  rw [single_dotProduct, single_dotProduct, one_mul, one_mul, Matrix.mulVec_single_one] at h
  rw [← sq]
  exact h

/-- Row `k` of the Newton equation for a free index. -/
theorem mulVec_dirAt_free (hL : L.Exact) (hH : a.H.PosDef) {s : State n ℝ} {k : Fin n} (hf : flagsAt a s k = false) :
    (a.H *ᵥ dirAt L a s) k = - gradient a s.x k := by
  have hn := dir_newton hL hH s
  have hk : k ∈ freeAt a s := by simp [freeAt, mem_idxs, hf]
  obtain ⟨j, hj⟩ := List.get_of_mem hk
  have h1 := congrFun hn j
  have h2 : (- subVec (gradient a s.x) (freeAt a s)) j = -gradient a s.x k := by
    simp only [Pi.neg_apply, subVec, hj]
  rw [h2] at h1
  rw [← h1]
  simp only [Matrix.mulVec, dotProduct]
  rw [sum_split (flagsAt a s) (fun i => a.H k i * dirAt L a s i)]
  have h3 : ∑ i : Fin (idxs (flagsAt a s)).length,
      a.H k ((idxs (flagsAt a s)).get i) * dirAt L a s ((idxs (flagsAt a s)).get i) = 0 := by
    refine Finset.sum_eq_zero fun i _ => ?_
    have h4 := mem_idxs.1 (List.get_mem (idxs (flagsAt a s)) i)
    have h5 : dirAt L a s ((idxs (flagsAt a s)).get i) = 0 :=
      scatter_not_mem _ _ (by rw [freeAt, mem_idxs, h4]; simp)
    rw [h5, mul_zero]
  rw [h3, add_zero]
  refine Finset.sum_congr rfl fun i _ => ?_
  have h4 : dirAt L a s ((freeAt a s).get i) = _ := scatter_get _ (idxs_nodup _) _ i
  change a.H k ((freeAt a s).get i) * dirAt L a s ((freeAt a s).get i) = _
  rw [h4]
  simp only [subMat, hj]

/-- What is known about a recorded iterate and its search direction. -/
structure StepFacts (a : Args n ℝ) (x d : Vec n ℝ) (f : Fin n → Bool) : Prop where
  clamped : ∀ i, f i = true → d i = 0 ∧ ∀ y, InBox a.lower a.upper y → 0 ≤ (a.g + a.H *ᵥ x) i * (y i - x i)
  free : ∀ i, f i = false → (a.H *ᵥ d) i = - (a.g + a.H *ᵥ x) i

theorem StepFacts.optimal (hH : a.H.PosDef) {x d : Vec n ℝ} {f : Fin n → Bool} (hs : StepFacts a x d f) {e : ℝ}
    (he : qp a.H a.g x - qp a.H a.g (x + d) ≤ e) {y : Vec n ℝ} (hy : InBox a.lower a.upper y) :
    qp a.H a.g (x + d) ≤ qp a.H a.g y + Real.sqrt (2 * a.H.trace * e) * Real.sqrt ((y - (x + d)) ⬝ᵥ (y - (x + d))) := by
  have hsd := hH.posSemidef
  have hps := posSemidef_iff.1 hsd
  set gr := a.g + a.H *ᵥ x with hgr
  have hslope : gr ⬝ᵥ d = - (d ⬝ᵥ (a.H *ᵥ d)) := by
    rw [dotProduct_comm d, dotProduct, dotProduct, ← Finset.sum_neg_distrib]
    refine Finset.sum_congr rfl fun i _ => ?_
    cases hf : f i with
    | true => rw [(hs.clamped i hf).1]; ring
    | false => rw [hs.free i hf]; ring
  have hdec : 1 / 2 * (d ⬝ᵥ (a.H *ᵥ d)) ≤ e := by
    rw [qp_expand hps.1, ← hgr, hslope] at he
    linarith
  set v : Vec n ℝ := fun i => if f i then (a.H *ᵥ d) i else 0 with hv
  have hvv : v ⬝ᵥ v ≤ 2 * a.H.trace * e := by
    have h1 : v ⬝ᵥ v ≤ (a.H *ᵥ d) ⬝ᵥ (a.H *ᵥ d) := by
      refine Finset.sum_le_sum fun i _ => ?_
      simp only [hv]
      split
      · exact le_rfl
      · rw [mul_zero]; exact mul_self_nonneg _
    have h2 := mulVec_sq_le hsd d
    have h3 : 0 ≤ a.H.trace := hsd.trace_nonneg
    have h4 := mul_le_mul_of_nonneg_left hdec h3
    linarith
  have h1 : v ⬝ᵥ (y - (x + d)) ≤ (a.g + a.H *ᵥ (x + d)) ⬝ᵥ (y - (x + d)) := by
    refine Finset.sum_le_sum fun i _ => ?_
    rw [Matrix.mulVec_add, ← add_assoc, ← hgr]
    simp only [hv, Pi.add_apply, Pi.sub_apply]
    cases hf : f i with
    | true =>
      obtain ⟨h5, h6⟩ := hs.clamped i hf
      have := h6 y hy
      rw [if_pos rfl, h5, add_zero]
      linarith
    | false => rw [hs.free i hf, ← hgr]; simp
  have h3 : -(Real.sqrt (2 * a.H.trace * e) * Real.sqrt ((y - (x + d)) ⬝ᵥ (y - (x + d)))) ≤ v ⬝ᵥ (y - (x + d)) := by
    have h4 := dot_sq_le v (y - (x + d))
    have h5 := dot_self_nonneg (y - (x + d))
    have h6 : (v ⬝ᵥ (y - (x + d))) ^ 2 ≤
        (Real.sqrt (2 * a.H.trace * e) * Real.sqrt ((y - (x + d)) ⬝ᵥ (y - (x + d)))) ^ 2 := by
      rw [mul_pow, Real.sq_sqrt h5, Real.sq_sqrt ((dot_self_nonneg v).trans hvv)]
      exact h4.trans (mul_le_mul_of_nonneg_right hvv h5)
    exact (abs_le_of_sq_le_sq' h6 (mul_nonneg (Real.sqrt_nonneg _) (Real.sqrt_nonneg _))).1
  rw [qp_expand' hps.1 a.g (x + d) y]
  have h7 := hps.2 (y - (x + d))
  linarith

theorem clampBox_of_inBox {l u x : Vec n ℝ} (hx : InBox l u x) : clampBox l u x = x := by
  funext i
  simp only [clampBox, fmax_real, fmin_real]
  rw [min_eq_left (hx i).2, max_eq_left (hx i).1]

/-- Invariant: the last trace entry describes the last step. -/
def InvR (L : LLT ℝ) (a : Args n ℝ) (s : State n ℝ) : Prop :=
  Inv8 L a s ∧ s.obj = qp a.H a.g s.x ∧
    (1 < s.iter → ∃ e ∈ s.trace, e.iter + 1 = s.iter ∧ s.oldObj = qp a.H a.g e.x ∧
      (∃ f, StepFacts a e.x e.searchDir f) ∧
      (e.stepNum = 0 → InBox a.lower a.upper (e.x + e.searchDir) → s.x = e.x + e.searchDir))

theorem invR_step (hL : L.Exact) (hH : a.H.PosDef) {s s' : State n ℝ} (hs : InvR L a s)
    (h : mainStep L c a s = .inl s') : InvR L a s' := by
  refine ⟨inv8_step hs.1 h, ?_⟩
  have := mainStep_out L c a s
  rw [h] at this
  cases this with
  | next hn hok hgr d hd hsd' ls hl hit tr htr htr' =>
    refine ⟨(lineSearch_candidate hl).2.1.trans (objective_eq _ _ _), fun _ => ⟨tr, by simp, by rw [htr], ?_, ?_, ?_⟩⟩
    · rw [htr'.1.1]; exact hs.2.1
    · have hdir := htr'.1.2
      rw [step_searchDir hs.1 hok hd] at hdir
      rw [hdir, htr'.1.1]
      refine ⟨flagsAt a s, fun i hi => ⟨scatter_not_mem _ _ (by rw [freeAt, mem_idxs]; simp [hi]), fun y hy => ?_⟩, fun i hi => ?_⟩
      · exact flags_sign hy hi
      · exact mulVec_dirAt_free hL hH hi
    · intro h0 hin
      have h1 := (lineSearch_candidate hl).1
      have h2 := (lineSearch_spec hl).1
      rw [← htr'.2.2, h0, pow_zero] at h2
      show ls.xc = _
      rw [h1, h2, candidate, smulv_real, one_smul, htr'.1.1, htr'.1.2]
      refine clampBox_of_inBox ?_
      rw [htr'.1.1, htr'.1.2] at hin
      exact hin

/-- **C89** When `solve` ends by the relative-improvement test (code 4) and the last recorded step was a full Newton step
(`step_num = 0`) that stayed in the box, the result is optimal over the box up to
`sqrt(2 * trace(H) * rel_improve_thre * |old_obj|)` times the distance to the competitor. -/
theorem C89_full_step (hL : L.Exact) (hH : a.H.PosDef) (h : solve L c o a = .ok r) (h4 : r.obj.retval = 4) :
    ∃ e ∈ r.obj.trace, e.iter + 1 = r.iter ∧
      (e.stepNum = 0 → InBox a.lower a.upper (e.x + e.searchDir) → ∀ y, InBox a.lower a.upper y →
        qp a.H a.g r.x ≤ qp a.H a.g y + Real.sqrt (2 * a.H.trace * (c.relImproveThre * |qp a.H a.g e.x|)) *
          Real.sqrt ((y - r.x) ⬝ᵥ (y - r.x))) := by
  obtain ⟨s, hs, rfl⟩ := solve_rule (InvR L a)
    (fun s => s.retval = 4 → ∃ e ∈ s.trace, e.iter + 1 = s.iter ∧
      (e.stepNum = 0 → InBox a.lower a.upper (e.x + e.searchDir) → ∀ y, InBox a.lower a.upper y →
        qp a.H a.g s.x ≤ qp a.H a.g y + Real.sqrt (2 * a.H.trace * (c.relImproveThre * |qp a.H a.g e.x|)) *
          Real.sqrt ((y - s.x) ⬝ᵥ (y - s.x))))
    ⟨inv8_init, objective_eq _ _ _, fun h => absurd h (by simp [initState])⟩
    (fun _ _ => invR_step hL hH)
    (fun s s' hs h => by
      have := mainStep_out L c a s
      rw [h] at this
      cases this with
      | rel h1 h2 =>
        intro _
        obtain ⟨e, he, hi, hold, ⟨f, hf⟩, hx⟩ := hs.2.2 h1
        refine ⟨e, List.mem_append_left _ he, hi, fun h0 hin y hy => ?_⟩
        have hx' := hx h0 hin
        rw [ltb_real, abs_real, hs.2.1, hold, hx'] at h2
        show qp a.H a.g s.x ≤ _ + _ * Real.sqrt ((y - s.x) ⬝ᵥ (y - s.x))
        rw [hx']
        exact hf.optimal hH h2.le hy
      | _ => intro h; exact absurd h (by simp)) h
  exact hs h4

/-- `min ½x² - 20000 x` over `[0, 30000]` from `19999`: one full step to the minimiser changes the objective by less than `1e-8` of its
value. -/
noncomputable def exArgs4 : Args 1 ℝ where
  H := 1
  g := fun _ => -20000
  lower := fun _ => 0
  upper := fun _ => 30000
  init := fun _ => 19999

theorem mainStep_rel {s : State n ℝ} (h1 : 1 < s.iter) (h2 : ltb (s.oldObj - s.obj) (c.relImproveThre * FOps.abs s.oldObj) = true) :
    mainStep L c a s = .inr (.ok { s with retval := 4, trace := s.trace ++ [Trace.new n s.iter] }) := by
  rw [mainStep, if_pos (by rw [h2]; simpa using h1)]

theorem ex4 (o : Obj 1 ℝ) : ∃ r, solve exactLLT Config.default o exArgs4 = .ok r ∧ r.obj.retval = 4 ∧ r.iter = 2 ∧
    ∃ e ∈ r.obj.trace, e.iter = 1 ∧ e.stepNum = 0 ∧ InBox exArgs4.lower exArgs4.upper (e.x + e.searchDir) := by
  have hH : exArgs4.H.PosDef := Matrix.PosDef.one
  have hin : ∀ i, exArgs4.lower i < exArgs4.init i ∧ exArgs4.init i < exArgs4.upper i := by intro i; norm_num [exArgs4]
  obtain ⟨s0, hs0⟩ : ∃ s0, s0 = initState exArgs4 o := ⟨_, rfl⟩
  have hx0 : s0.x = exArgs4.init := by rw [hs0]; exact clampBox_of_inBox fun i => ⟨(hin i).1.le, (hin i).2.le⟩
  have hi0 : s0.iter = 1 := by rw [hs0]; rfl
  have ho0 : s0.obj = -199999999.5 := by
    have : s0.obj = qp exArgs4.H exArgs4.g exArgs4.init := by rw [← hx0, hs0]; exact objective_eq _ _ _
    rw [this]; norm_num [qp, exArgs4, dotProduct]
  have hinv0 : Inv8 exactLLT exArgs4 s0 := by rw [hs0]; exact inv8_init
  have hf0 : ∀ i, flagsAt exArgs4 s0 i = false := by
    intro i; rw [flagsAt, hx0]; exact flags_interior hin _ i
  have hg0 : gradient exArgs4 s0.x = fun _ => -1 := by
    rw [hx0, gradient_real]; funext i; norm_num [exArgs4]
  have hdir : dirAt exactLLT exArgs4 s0 = fun _ => 1 := by
    have := mulVec_dirAt exactLLT_exact hH hf0
    rw [hg0] at this
    funext i
    have := congrFun this i
    simpa [exArgs4] using this
  have hsl : dirAt exactLLT exArgs4 s0 ⬝ᵥ gradient exArgs4 s0.x = -1 := by rw [hdir, hg0]; simp [dotProduct]
  have hcand : candidate exArgs4 exArgs4.init (fun _ => 1) 1 = fun _ => 20000 := by
    funext i
    simp only [candidate, clampBox, fmax_real, fmin_real, smulv_real, Pi.add_apply, Pi.smul_apply, smul_eq_mul, exArgs4]
    norm_num
  have hobj : objective exArgs4.H exArgs4.g (fun _ => 20000) = -200000000 := by
    rw [objective_eq]; norm_num [qp, exArgs4, dotProduct]
  have hls : lineSearch Config.default exArgs4 exArgs4.init (fun _ => 1) s0.obj (-1) s0.retval =
      some (lsInit exArgs4 exArgs4.init (fun _ => 1) s0.retval) := by
    refine loopM_inr ?_
    rw [lsStep, if_neg]
    simp only [lsInit, hcand, hobj, ho0, ltb_real, Config.default, lit_real]
    norm_num
  have hout := mainStep_out exactLLT Config.default exArgs4 s0
  generalize hz : mainStep exactLLT Config.default exArgs4 s0 = z at hout
  cases hout with
  | rel h1 => omega
  | all h => exact absurd (h 0) (by simp [hf0])
  | fail _ _ hok =>
    have hPD : (subMat exArgs4.H (freeAt exArgs4 s0) (freeAt exArgs4 s0)).PosDef := subMat_posDef hH _
    rw [← exactLLT_exact.ok_iff _ (posDef_iff.1 hPD).1] at hPD
    rw [hPD] at hok; cases hok
  | grad _ _ hlt =>
    rw [ltb_real, freeAt, freeGradNorm_eq, hg0] at hlt
    norm_num [hf0, Config.default] at hlt
  | ub _ hok hd => rw [searchDirFree_coherent hinv0 hok] at hd; cases hd
  | ascent _ hok _ d hd hlt =>
    rw [step_searchDir hinv0 hok hd] at hlt
    simp only [dot_real, ltb_real, lit_real, hsl] at hlt
    norm_num at hlt
  | diverge d _ hok hd hll =>
    rw [step_searchDir hinv0 hok hd, dot_real, hsl, hdir, hx0, hls] at hll
    cases hll
  | maxIter _ _ _ _ _ _ _ _ hit => rw [hi0] at hit; exact absurd hit (by norm_num [Config.default])
  | next _ hok _ d hd _ ls hll hit tr htr htr' fn =>
    rw [step_searchDir hinv0 hok hd] at htr'
    rw [step_searchDir hinv0 hok hd, dot_real, hsl, hdir, hx0, hls] at hll
    cases hll
    have h2 := mainStep_rel (L := exactLLT) (c := Config.default) (a := exArgs4)
      (s := { x := (lsInit exArgs4 exArgs4.init (fun _ => 1) s0.retval).xc, obj := (lsInit exArgs4 exArgs4.init (fun _ => 1) s0.retval).objc,
              oldObj := s0.obj, clamped := flagsAt exArgs4 s0, iter := s0.iter + 1, factNum := fn,
              llt := lltAt exArgs4 s0, free := freeAt exArgs4 s0,
              retval := (lsInit exArgs4 exArgs4.init (fun _ => 1) s0.retval).retval, trace := s0.trace ++ [tr] })
      (by show 1 < s0.iter + 1; omega)
      (by
        simp only [lsInit, hcand, hobj, ho0, ltb_real, Config.default, lit_real, abs_real]
        norm_num)
    refine ⟨_, by rw [solve, loopR, ← hs0, loopM_inl hz, loopM_inr h2]; rfl, rfl, ?_, tr, ?_, by rw [htr, hi0], htr'.2.2, ?_⟩
    · show s0.iter + 1 = 2; omega
    · show tr ∈ (s0.trace ++ [tr]) ++ _; simp
    · rw [htr'.1.1, htr'.1.2, hdir, hx0]
      intro i
      norm_num [exArgs4]

/-- The first part of C89 applied to this run. -/
example (o : Obj 1 ℝ) : ∃ r, solve exactLLT Config.default o exArgs4 = .ok r ∧ r.obj.retval = 4 ∧
    ∃ e ∈ r.obj.trace, e.iter + 1 = r.iter ∧ ∀ y, InBox exArgs4.lower exArgs4.upper y →
      qp exArgs4.H exArgs4.g r.x ≤ qp exArgs4.H exArgs4.g y +
        Real.sqrt (2 * exArgs4.H.trace * ((Config.default : Config ℝ).relImproveThre * |qp exArgs4.H exArgs4.g e.x|)) *
          Real.sqrt ((y - r.x) ⬝ᵥ (y - r.x)) := by
  obtain ⟨r, h1, h2, h3, e, he, hi, h4, h5⟩ := ex4 o
  obtain ⟨e', he', hi', h6⟩ := C89_full_step exactLLT_exact Matrix.PosDef.one h1 h2
  have heq : e' = e := by
    have hnd : (r.obj.trace.map Trace.iter).Nodup := by rw [(C03_trace h1).2]; exact List.nodup_range
    exact List.inj_on_of_nodup_map hnd he' he (by omega)
  subst heq
  exact ⟨r, h1, h2, e', he', hi', h6 h4 h5⟩

/-! ## In general -/

/-- The Hessian of the witness. -/
noncomputable def stuckH : Mat 2 2 ℝ := ![![1, 3], ![3, 10]]

/-- The problem of the witness with scale `l`: the start is at distance `l * δ` from the first lower limit, and the unconstrained minimiser is `l * (-10, 1)` away. -/
noncomputable def stuckArgs (l δ : ℝ) : Args 2 ℝ where
  H := stuckH
  g := ![l * (6 - δ), l * (17 - 3 * δ)]
  lower := ![l, -10 * l]
  upper := ![3 * l, 10 * l]
  init := ![l * (1 + δ), 0]

theorem stuckH_posDef : stuckH.PosDef := by
  rw [posDef_iff]
  refine ⟨by ext i j; fin_cases i <;> fin_cases j <;> rfl, fun v hv => ?_⟩
  have h : v ⬝ᵥ (stuckH *ᵥ v) = (v 0 + 3 * v 1) ^ 2 + v 1 ^ 2 := by
    simp [stuckH, dotProduct, Matrix.mulVec, Fin.sum_univ_two]
    ring
  rw [h]
  by_cases h1 : v 1 = 0
  · have h0 : v 0 ≠ 0 := fun h0 => hv (by funext i; fin_cases i <;> simp [h0, h1])
    rw [h1, mul_zero, add_zero]; positivity
  · positivity

theorem stuck_qp (l δ : ℝ) (x : Vec 2 ℝ) : qp (stuckArgs l δ).H (stuckArgs l δ).g x =
    l * (6 - δ) * x 0 + l * (17 - 3 * δ) * x 1 + 1 / 2 * (x 0 ^ 2 + 6 * x 0 * x 1 + 10 * x 1 ^ 2) := by
  simp [qp, stuckArgs, stuckH, dotProduct, Matrix.mulVec, Fin.sum_univ_two]
  ring


theorem stuck_gradient (l δ : ℝ) : gradient (stuckArgs l δ) (stuckArgs l δ).init = ![7 * l, 20 * l] := by
  rw [gradient_real]
  funext i
  fin_cases i <;> simp [stuckArgs, stuckH, Matrix.mulVec, dotProduct, Fin.sum_univ_two] <;> ring

theorem lineSearch_cut {x dir : Vec n ℝ} {oldObj sdg : ℝ} {rv : ℤ} {ls : LS n ℝ} (hf0 : 0 ≤ c.stepFactor) (hf1 : c.stepFactor ≤ 1)
    (hms : 0 ≤ c.minStep) (h : lineSearch c a x dir oldObj sdg rv = some ls) : c.stepFactor * min 1 c.minStep ≤ ls.step := by
  refine loopM_invariant (fun s => min 1 c.minStep ≤ s.step) (fun s => c.stepFactor * min 1 c.minStep ≤ s.step) ?_ ?_
    (min_le_left _ _) h
  · intro s s' hs h
    unfold lsStep at h
    split at h
    · dsimp only at h
      split at h
      · cases h
      · rename_i h1
        cases h
        rw [ltb_real, not_lt] at h1
        exact (min_le_right _ _).trans h1
    · cases h
  · intro s s' hs h
    unfold lsStep at h
    split at h
    · dsimp only at h
      split at h
      · cases h
        show _ ≤ s.step * c.stepFactor
        rw [mul_comm]
        exact mul_le_mul_of_nonneg_right hs hf0
      · cases h
    · cases h
      exact (mul_le_of_le_one_left (le_min one_pos.le hms) hf1).trans hs

/-- A candidate along a direction with a non-positive first and a non-negative second component. -/
theorem drag_candidate {a : Args 2 ℝ} {x d : Vec 2 ℝ} {s : ℝ} (hx : InBox a.lower a.upper x) (hd0 : d 0 ≤ 0) (hd1 : 0 ≤ d 1)
    (hs : 0 ≤ s) : (a.lower 0 ≤ candidate a x d s 0 ∧ candidate a x d s 0 ≤ x 0) ∧ x 1 ≤ candidate a x d s 1 := by
  simp only [candidate, clampBox, fmax_real, fmin_real, smulv_real, Pi.add_apply, Pi.smul_apply, smul_eq_mul]
  refine ⟨⟨le_max_right _ _, max_le ((min_le_left _ _).trans ?_) (hx 0).1⟩, le_max_of_le_left (le_min ?_ (hx 1).2)⟩
  · nlinarith
  · nlinarith

theorem stuck_candidate {l δ s : ℝ} (hl : 0 < l) (hδ : 0 ≤ δ) (hs : 0 ≤ s) :
    l ≤ candidate (stuckArgs l δ) (stuckArgs l δ).init ![-10 * l, l] s 0 ∧
      candidate (stuckArgs l δ) (stuckArgs l δ).init ![-10 * l, l] s 0 ≤ l * (1 + δ) ∧
      0 ≤ candidate (stuckArgs l δ) (stuckArgs l δ).init ![-10 * l, l] s 1 := by
  have h1 : 0 ≤ s * l := mul_nonneg hs hl.le
  have h2 : 0 ≤ l * δ := mul_nonneg hl.le hδ
  simp only [candidate, clampBox, fmax_real, fmin_real, smulv_real, Pi.add_apply, Pi.smul_apply, smul_eq_mul, stuckArgs]
  refine ⟨le_max_right _ _, max_le ((min_le_left _ _).trans ?_) ?_, le_max_of_le_left (le_min ?_ ?_)⟩
  · simp; nlinarith
  · simp; nlinarith
  · simpa using h1
  · simp; exact hl.le

theorem stuck_diff (l δ : ℝ) (x : Vec 2 ℝ) :
    qp (stuckArgs l δ).H (stuckArgs l δ).g x = qp (stuckArgs l δ).H (stuckArgs l δ).g (stuckArgs l δ).init +
      (7 * l * (x 0 - l * (1 + δ)) + 20 * l * x 1 + 1 / 2 * ((x 0 - l * (1 + δ)) ^ 2 + 6 * (x 0 - l * (1 + δ)) * x 1 + 10 * x 1 ^ 2)) := by
  rw [stuck_qp, stuck_qp]
  simp [stuckArgs]
  ring

theorem stuck_interior {l δ : ℝ} (hl : 0 < l) (hδ : 0 < δ) (hδ1 : δ ≤ 1) (i : Fin 2) :
    (stuckArgs l δ).lower i < (stuckArgs l δ).init i ∧ (stuckArgs l δ).init i < (stuckArgs l δ).upper i := by
  have h1 : 0 < l * δ := mul_pos hl hδ
  have h2 : l * δ ≤ l := by nlinarith
  fin_cases i <;> simp [stuckArgs] <;> first | exact hl | (constructor <;> nlinarith)

/-- A start strictly inside a two-dimensional box whose Newton direction `d` leads towards the first lower limit and uphill in the second
component: `solve` makes one step along `d` and stops with code 4 if the start is close enough to the limit. -/
theorem drag_run (hL : L.Exact) (hm : c.maxIter ≠ 1) (hf0 : 0 ≤ c.stepFactor) (hf : c.stepFactor < 1) (hms : 0 < c.minStep)
    {a : Args 2 ℝ} (hH : a.H.PosDef) (hin : ∀ i, a.lower i < a.init i ∧ a.init i < a.upper i) {d : Vec 2 ℝ}
    (hd : a.H *ᵥ d = -gradient a a.init) (hd0 : d 0 ≤ 0) (hd1 : 0 ≤ d 1) (hG0 : 0 ≤ gradient a a.init 0)
    (hG1 : 0 ≤ gradient a a.init 1) (hg : c.gradThre * c.gradThre ≤ gradient a a.init ⬝ᵥ gradient a a.init)
    (ht : gradient a a.init 0 * (a.init 0 - a.lower 0) < c.relImproveThre * |qp a.H a.g a.init|) (o : Obj 2 ℝ) :
    ∃ r s, solve L c o a = .ok r ∧ r.obj.retval = 4 ∧ 0 ≤ s ∧ r.x = candidate a a.init d s ∧
      c.stepFactor * min 1 c.minStep ≤ s := by
  have hbox : InBox a.lower a.upper a.init := fun i => ⟨(hin i).1.le, (hin i).2.le⟩
  obtain ⟨s0, hs0⟩ : ∃ s0, s0 = initState a o := ⟨_, rfl⟩
  have hx0 : s0.x = a.init := by rw [hs0]; exact clampBox_of_inBox hbox
  have hi0 : s0.iter = 1 := by rw [hs0]; rfl
  have ho0 : s0.obj = qp a.H a.g a.init := by
    rw [← hx0, hs0]; exact objective_eq _ _ _
  have hinv0 : Inv8 L a s0 := by rw [hs0]; exact inv8_init
  have hf0' : ∀ i, flagsAt a s0 i = false := by
    intro i; rw [flagsAt, hx0]; exact flags_interior hin _ i
  have hfree : freeGradNorm (gradient a s0.x) (freeAt a s0) = gradient a a.init ⬝ᵥ gradient a a.init := by
    rw [freeAt, freeGradNorm_eq, hx0]
    simp [hf0', dotProduct]
  have hdir : dirAt L a s0 = d := by
    have h1 : a.H *ᵥ (dirAt L a s0 - d) = 0 := by
      rw [Matrix.mulVec_sub, mulVec_dirAt hL hH hf0', hd, hx0, sub_self]
    by_contra hne
    have := (posDef_iff.1 hH).2 _ (sub_ne_zero.2 hne)
    rw [h1, dotProduct_zero] at this
    exact lt_irrefl _ this
  have hsl : dirAt L a s0 ⬝ᵥ gradient a s0.x ≤ 0 := by
    rw [hdir, hx0, ← neg_neg (gradient a a.init), ← hd, dotProduct_neg, neg_nonpos]
    by_cases h0 : d = 0
    · simp [h0]
    · exact ((posDef_iff.1 hH).2 _ h0).le
  -- the value after any step
  have hval : ∀ s : ℝ, 0 ≤ s → qp a.H a.g a.init - qp a.H a.g (candidate a a.init d s) ≤
      gradient a a.init 0 * (a.init 0 - a.lower 0) := by
    intro s hs
    obtain ⟨h1, h2⟩ := drag_candidate hbox hd0 hd1 hs
    set y := candidate a a.init d s with hy
    have h3 := qp_expand' (posDef_iff.1 hH).1 a.g a.init y
    have h4 : 0 ≤ (y - a.init) ⬝ᵥ (a.H *ᵥ (y - a.init)) := by
      by_cases h0 : y - a.init = 0
      · simp [h0]
      · exact ((posDef_iff.1 hH).2 _ h0).le
    have h5 : (a.g + a.H *ᵥ a.init) ⬝ᵥ (y - a.init) =
        gradient a a.init 0 * (y 0 - a.init 0) + gradient a a.init 1 * (y 1 - a.init 1) := by
      rw [← gradient_real]; simp [dotProduct, Fin.sum_univ_two]
    rw [h5] at h3
    nlinarith [mul_nonneg hG1 (sub_nonneg.2 h2), mul_nonneg hG0 (sub_nonneg.2 h1.1)]
  have hout := mainStep_out L c a s0
  generalize hz : mainStep L c a s0 = z at hout
  cases hout with
  | rel h1 => omega
  | all h => exact absurd (h 0) (by simp [hf0'])
  | fail _ _ hok =>
    have hPD : (subMat a.H (freeAt a s0) (freeAt a s0)).PosDef := subMat_posDef hH _
    rw [← hL.ok_iff _ (posDef_iff.1 hPD).1] at hPD
    rw [hPD] at hok; cases hok
  | grad _ _ hlt =>
    rw [ltb_real, hfree] at hlt
    linarith
  | ub _ hok hd => rw [searchDirFree_coherent hinv0 hok] at hd; cases hd
  | ascent _ hok _ d hd hlt =>
    rw [step_searchDir hinv0 hok hd] at hlt
    rw [dot_real, ltb_real, lit_real] at hlt
    have h3 : (0 : ℝ) < ((1 / 10 ^ 10 : ℚ) : ℝ) := by norm_num
    linarith
  | diverge d _ hok hd hll =>
    obtain ⟨ls, h'⟩ := lineSearch_terminates (a := a) (step_eventually_small hf hms) s0.x (scatter (freeAt a s0) d) s0.obj
      (FOps.dot (scatter (freeAt a s0) d) (gradient a s0.x)) s0.retval
    rw [hll] at h'; cases h'
  | maxIter _ _ _ _ _ _ _ _ hit => rw [hi0] at hit; exact absurd hit.symm (by exact_mod_cast hm)
  | next _ hok _ d hd _ ls hll hit tr htr htr' fn =>
    rw [step_searchDir hinv0 hok hd, dot_real, hdir, hx0] at hll
    have hc := lineSearch_candidate hll
    have hst : 0 ≤ ls.step := by rw [(lineSearch_spec hll).1]; exact pow_nonneg hf0 _
    have hobj : ls.objc = qp a.H a.g ls.xc := hc.2.1.trans (objective_eq _ _ _)
    have hcut := lineSearch_cut hf0 hf.le hms.le hll
    have hrel : ltb (s0.obj - ls.objc) (c.relImproveThre * FOps.abs s0.obj) = true := by
      have h1 := hval _ hst
      rw [← hc.1, ← ho0, ← hobj] at h1
      rw [ltb_real, abs_real, ho0]
      rw [ho0] at h1
      linarith
    have h2 := mainStep_rel (L := L) (c := c) (a := a)
      (s := { x := ls.xc, obj := ls.objc, oldObj := s0.obj, clamped := flagsAt a s0, iter := s0.iter + 1, factNum := fn,
              llt := lltAt a s0, free := freeAt a s0, retval := ls.retval, trace := s0.trace ++ [tr] })
      (by show 1 < s0.iter + 1; omega) hrel
    exact ⟨_, ls.step, by rw [solve, loopR, ← hs0, loopM_inl hz, loopM_inr h2]; rfl, rfl, hst, hc.1, hcut⟩

/-- On this problem `solve` makes one step along `l * (-10, 1)` and stops with code 4. -/
theorem stuck_run (hL : L.Exact) (hm : c.maxIter ≠ 1) (hf0 : 0 ≤ c.stepFactor) (hf : c.stepFactor < 1) (hms : 0 < c.minStep)
    {l δ : ℝ} (hl : 0 < l) (hg : c.gradThre * c.gradThre ≤ l * l) (hδ : 0 < δ) (hδ1 : δ ≤ 1) (ht : 7 * δ < c.relImproveThre * (13 / 2))
    (o : Obj 2 ℝ) :
    ∃ r s, solve L c o (stuckArgs l δ) = .ok r ∧ r.obj.retval = 4 ∧ 0 ≤ s ∧
      r.x = candidate (stuckArgs l δ) (stuckArgs l δ).init ![-10 * l, l] s ∧ c.stepFactor * min 1 c.minStep ≤ s := by
  have hll : 0 < l * l := mul_pos hl hl
  refine drag_run hL hm hf0 hf hms (a := stuckArgs l δ) stuckH_posDef (stuck_interior hl hδ hδ1) ?_ ?_ ?_ ?_ ?_ ?_ ?_ o
  · rw [stuck_gradient]
    funext i
    fin_cases i <;> simp [stuckArgs, stuckH, Matrix.mulVec, dotProduct, Fin.sum_univ_two] <;> ring
  · simp [hl.le]
  · simp [hl.le]
  · rw [stuck_gradient]; simp [hl.le]
  · rw [stuck_gradient]; simp [hl.le]
  · rw [stuck_gradient]; simp [dotProduct, Fin.sum_univ_two]; nlinarith
  · have hold : 13 / 2 * (l * l) ≤ qp (stuckArgs l δ).H (stuckArgs l δ).g (stuckArgs l δ).init := by
      rw [stuck_qp]
      simp [stuckArgs]
      nlinarith [mul_pos hδ hll]
    rw [stuck_gradient, abs_of_nonneg (by linarith)]
    have h3 : 0 < c.relImproveThre := by linarith
    simp only [cons_val_zero, stuckArgs] at hold ⊢
    nlinarith [mul_le_mul_of_nonneg_left hold h3.le, mul_lt_mul_of_pos_right ht hll]

/-- **C89** Otherwise code 4 certifies nothing: for every configuration with a positive `rel_improve_thre` and every `M` there are a
positive definite problem and an initial guess strictly inside the box for which `solve` returns code 4 at a point whose
objective exceeds that of another point of the box by at least `M`. -/
theorem C89_no_certificate (hL : L.Exact) (hm : c.maxIter ≠ 1) (hf0 : 0 ≤ c.stepFactor) (hf : c.stepFactor < 1)
    (hms : 0 < c.minStep) (ht : 0 < c.relImproveThre) (o : Obj 2 ℝ) (M : ℝ) :
    ∃ a : Args 2 ℝ, a.H.PosDef ∧ (∀ i, a.lower i < a.init i ∧ a.init i < a.upper i) ∧
      ∃ r, solve L c o a = .ok r ∧ r.obj.retval = 4 ∧
        ∃ y, InBox a.lower a.upper y ∧ qp a.H a.g y + M ≤ qp a.H a.g r.x := by
  set δ := min 1 c.relImproveThre / 2 with hδd
  have hδ : 0 < δ := by rw [hδd]; exact half_pos (lt_min one_pos ht)
  have hδ1 : δ ≤ 1 := by rw [hδd]; linarith [min_le_left 1 c.relImproveThre]
  have hδt : 7 * δ < c.relImproveThre * (13 / 2) := by rw [hδd]; linarith [min_le_right 1 c.relImproveThre]
  set l := 1 + |c.gradThre| + |M| with hld
  have hl : 1 ≤ l := by rw [hld]; linarith [abs_nonneg c.gradThre, abs_nonneg M]
  have hl0 : 0 < l := by linarith
  have hlM : M ≤ l := by rw [hld]; linarith [abs_nonneg c.gradThre, le_abs_self M]
  have hlg : c.gradThre * c.gradThre ≤ l * l := by
    rw [← abs_mul_abs_self c.gradThre]
    have : |c.gradThre| ≤ l := by rw [hld]; linarith [abs_nonneg M]
    exact mul_self_le_mul_self (abs_nonneg _) this
  obtain ⟨r, s, h1, h2, h3, h4, -⟩ := stuck_run hL hm hf0 hf hms hl0 hlg hδ hδ1 hδt o
  refine ⟨stuckArgs l δ, stuckH_posDef, stuck_interior hl0 hδ hδ1, r, h1, h2, ![l, -2 * l], ?_, ?_⟩
  · intro i
    fin_cases i <;> simp [stuckArgs] <;> first | linarith | (constructor <;> linarith)
  · obtain ⟨h5, h6, h7⟩ := stuck_candidate hl0 hδ.le h3
    rw [← h4] at h5 h6 h7
    rw [stuck_diff l δ r.x, stuck_diff l δ ![l, -2 * l]]
    simp only [cons_val_zero, cons_val_one]
    have hll : l ≤ l * l := by nlinarith
    nlinarith [mul_pos hl0 hl0, mul_nonneg h7 hl0.le, mul_nonneg h7 (sub_nonneg.2 h5), mul_nonneg hl0.le (sub_nonneg.2 h5),
      mul_nonneg h7 (mul_nonneg hl0.le (sub_nonneg.2 hδ1)), sq_nonneg (r.x 0 - l * (1 + δ)), sq_nonneg (r.x 1),
      mul_nonneg (mul_pos hl0 hl0).le (sub_nonneg.2 hδ1), mul_nonneg (mul_pos hl0 hl0).le hδ.le,
      mul_nonneg (mul_pos hl0 hl0).le (sq_nonneg δ)]

/-- **C89** The restriction of C07 to runs that are not cut off by `min_step` is necessary: for every configuration with positive
`min_step` and `step_factor` there is a positive definite problem for which the returned point is worse than the initial guess (which
is strictly inside the box), again with code 4. -/
theorem C89_min_step (hL : L.Exact) (hm : c.maxIter ≠ 1) (hf0 : 0 < c.stepFactor) (hf : c.stepFactor < 1)
    (hms : 0 < c.minStep) (ht : 0 < c.relImproveThre) (o : Obj 2 ℝ) :
    ∃ a : Args 2 ℝ, a.H.PosDef ∧ (∀ i, a.lower i < a.init i ∧ a.init i < a.upper i) ∧
      ∃ r, solve L c o a = .ok r ∧ r.obj.retval = 4 ∧ qp a.H a.g a.init < qp a.H a.g r.x := by
  set σ := c.stepFactor * min 1 c.minStep with hσd
  have hσ : 0 < σ := mul_pos hf0 (lt_min one_pos hms)
  set δ := min (min 1 c.relImproveThre) σ / 2 with hδd
  have hδ : 0 < δ := by rw [hδd]; exact half_pos (lt_min (lt_min one_pos ht) hσ)
  have hm1 := min_le_left (min 1 c.relImproveThre) σ
  have hδ1 : δ ≤ 1 := by rw [hδd]; linarith [min_le_left 1 c.relImproveThre]
  have hδt : 7 * δ < c.relImproveThre * (13 / 2) := by rw [hδd]; linarith [min_le_right 1 c.relImproveThre]
  have hδσ : 2 * δ ≤ σ := by rw [hδd]; linarith [min_le_right (min 1 c.relImproveThre) σ]
  set l := 1 + |c.gradThre| with hld
  have hl0 : 0 < l := by rw [hld]; linarith [abs_nonneg c.gradThre]
  have hlg : c.gradThre * c.gradThre ≤ l * l := by
    rw [← abs_mul_abs_self c.gradThre]
    have : |c.gradThre| ≤ l := by rw [hld]; linarith
    exact mul_self_le_mul_self (abs_nonneg _) this
  obtain ⟨r, s, h1, h2, h3, h4, h5⟩ := stuck_run hL hm hf0.le hf hms hl0 hlg hδ hδ1 hδt o
  refine ⟨stuckArgs l δ, stuckH_posDef, stuck_interior hl0 hδ hδ1, r, h1, h2, ?_⟩
  obtain ⟨h6, h7, h8⟩ := stuck_candidate hl0 hδ.le h3
  have h9 : 2 * δ * l ≤ candidate (stuckArgs l δ) (stuckArgs l δ).init ![-10 * l, l] s 1 := by
    simp only [candidate, clampBox, fmax_real, fmin_real, smulv_real, Pi.add_apply, Pi.smul_apply, smul_eq_mul, stuckArgs]
    refine le_max_of_le_left (le_min ?_ ?_)
    · simp; nlinarith
    · simp; nlinarith
  rw [← h4] at h6 h7 h8 h9
  rw [stuck_diff l δ r.x]
  nlinarith [mul_pos hl0 hl0, mul_le_mul_of_nonneg_left h9 hl0.le, mul_nonneg h8 (sub_nonneg.2 h6), mul_nonneg hl0.le (sub_nonneg.2 h6),
    mul_nonneg h8 (mul_nonneg hl0.le (sub_nonneg.2 hδ1)), sq_nonneg (r.x 0 - l * (1 + δ)), sq_nonneg (r.x 1),
    mul_pos (mul_pos hl0 hl0) hδ]

/-- The hypotheses are met by the default configuration. -/
example (o : Obj 2 ℝ) : ∃ a : Args 2 ℝ, a.H.PosDef ∧ (∀ i, a.lower i < a.init i ∧ a.init i < a.upper i) ∧
    ∃ r, solve exactLLT Config.default o a = .ok r ∧ r.obj.retval = 4 ∧
      ∃ y, InBox a.lower a.upper y ∧ qp a.H a.g y + 1000000 ≤ qp a.H a.g r.x := by
  refine C89_no_certificate exactLLT_exact ?_ ?_ ?_ ?_ ?_ o 1000000 <;> norm_num [Config.default]

/-- Likewise for the run that ends at a worse point. -/
example (o : Obj 2 ℝ) : ∃ a : Args 2 ℝ, a.H.PosDef ∧ (∀ i, a.lower i < a.init i ∧ a.init i < a.upper i) ∧
    ∃ r, solve exactLLT Config.default o a = .ok r ∧ r.obj.retval = 4 ∧ qp a.H a.g a.init < qp a.H a.g r.x := by
  refine C89_min_step exactLLT_exact ?_ ?_ ?_ ?_ ?_ o <;> norm_num [Config.default]

end Nmpc.BoxQP
