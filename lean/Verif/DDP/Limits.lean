import Verif.DDP.Descent
import Verif.BoxQP.Clamped

/-!
# C20, C21, C27: input limits (exact arithmetic)
-/

namespace Nmpc.DDP

set_option linter.unusedSectionVars false

open Matrix Finset

/-! ## C27 -/

section OneStage
variable {n k : ℕ} {L : LLT ℝ}

/-- What the gains of a stage with limits satisfy: `free` is the set of inputs the quadratic program left free. -/
structure LimitGains (Q : QData n k ℝ) (lower upper u kv : Vec k ℝ) (K : Mat k n ℝ) (free : Finset (Fin k)) : Prop where
  within : ∀ i, lower i ≤ u i + kv i ∧ u i + kv i ≤ upper i
  clamped : ∀ i, i ∉ free → u i + kv i = lower i ∨ u i + kv i = upper i
  zeroRow : ∀ i, i ∉ free → ∀ j, K i j = 0
  freeRow : ∀ i ∈ free, ∀ j, ∑ i' ∈ free, Q.QuuF i i' * K i' j = -Q.QuxReg i j

theorem scatterRows_get (r : List (Fin k)) (hr : r.Nodup) (A : Mat r.length n ℝ) (i : Fin r.length) (j : Fin n) :
    scatterRows r A (r.get i) j = A i j := by
  have hm : r.get i ∈ r := List.get_mem _ _
  rw [scatterRows, dif_pos hm]
  congr 1
  ext
  simpa using hr.idxOf_getElem i.1 i.2

theorem constrainedGains_limits (hL : L.Exact) {Q : QData n k ℝ} (hQ : Q.QuuF.IsSymm) {lower upper u ik kv : Vec k ℝ}
    {K : Mat k n ℝ} (hlu : ∀ i, lower i ≤ upper i)
    (h : constrainedGains L Q lower upper u ik = .ok (some (kv, K))) :
    ∃ free, LimitGains Q lower upper u kv K free := by
  rcases constrainedGains_out (L := L) Q lower upper u ik with h' | ⟨r, hr, h'⟩
  · rw [h'.1] at h; cases h
  have hbox := BoxQP.C01_result_in_box_real (r := r) (fun i => by
    show lower i - u i ≤ upper i - u i
    linarith [hlu i]) hr
  have hlim := BoxQP.C57_clamped_at_limit (r := r) (fun i => by
    show lower i - u i ≤ upper i - u i
    linarith [hlu i]) hr
  have hsort := (BoxQP.C08_factorisation hr).1
  have hin : ∀ i, lower i ≤ u i + r.x i ∧ u i + r.x i ≤ upper i := by
    intro i
    have := hbox i
    simp only [Pi.sub_apply] at this
    constructor <;> linarith [this.1, this.2]
  have hcl : ∀ i, i ∉ r.obj.free → u i + r.x i = lower i ∨ u i + r.x i = upper i := by
    intro i hi
    have := hlim i hi
    simp only [Pi.sub_apply] at this
    rcases this with h | h
    · left; linarith
    · right; linarith
  rcases h' with h' | h' | h'
  · rw [h'.2] at h; cases h
  · rw [h'.2.2] at h
    simp only [Res.ok.injEq, Option.some.injEq] at h
    obtain ⟨rfl, rfl⟩ := h
    refine ⟨∅, hin, ?_, fun _ _ _ => rfl, fun i hi => by simp at hi⟩
    intro i _
    exact hcl i (by rw [h'.2.1]; simp)
  · rw [h'.2.2.2] at h
    simp only [Res.ok.injEq, Option.some.injEq, Prod.mk.injEq] at h
    obtain ⟨rfl, rfl⟩ := h
    have hnd : r.obj.free.Nodup := hsort.imp (fun h => ne_of_lt h)
    refine ⟨r.obj.free.toFinset, hin, ?_, ?_, ?_⟩
    · intro i hi; exact hcl i (by simpa using hi)
    · intro i hi j
      rw [scatterRows, dif_neg (by simpa using hi)]
    · intro i hi j
      have hi' : i ∈ r.obj.free := by simpa using hi
      obtain ⟨a, rfl⟩ := List.get_of_mem hi'
      have hPD : (BoxQP.subMat Q.QuuF r.obj.free r.obj.free).PosDef :=
        (hL.ok_iff _ (BoxQP.subMat_symm hQ _)).1 h'.2.2.1
      have hs := solveMat_exact hL hPD (rowsOf Q.QuxReg r.obj.free)
      have hs' := congrFun (congrFun hs a) j
      rw [Matrix.mul_apply] at hs'
      rw [List.sum_toFinset _ hnd, ← BoxQP.sum_get r.obj.free]
      have hneg : ∀ b : Fin r.obj.free.length,
          scatterRows r.obj.free (smulm (-1) (L.solveMat (BoxQP.subMat Q.QuuF r.obj.free r.obj.free)
            (rowsOf Q.QuxReg r.obj.free))) (r.obj.free.get b) j =
          -(L.solveMat (BoxQP.subMat Q.QuuF r.obj.free r.obj.free) (rowsOf Q.QuxReg r.obj.free)) b j := by
        intro b
        rw [scatterRows_get _ hnd, smulm_real]
        simp
      simp only [hneg, mul_neg, Finset.sum_neg_distrib, neg_inj]
      exact hs'

end OneStage

section Step
variable {n : ℕ} {m : ℕ → ℕ} {L : LLT ℝ} {cfg : Config ℝ} {N : ℕ} {S : Stages n m ℝ} {x0 : Vec n ℝ}
  {lim : (i : ℕ) → Vec (m i) ℝ × Vec (m i) ℝ}

theorem stageGains_limits (hL : L.Exact) (hw : cfg.withConstraint = true) (hlim : S.lim = some lim)
    {c : Ctrl n m ℝ} {g : Gains n m ℝ} {i : ℕ} {Q : QData n (m i) ℝ} (hQ : Q.QuuF.IsSymm)
    (hlu : ∀ r, (lim i).1 r ≤ (lim i).2 r) {kv : Vec (m i) ℝ} {K : Mat (m i) n ℝ}
    (h : stageGains L N cfg S c g i Q = .ok (some (kv, K))) :
    ∃ free, LimitGains Q (lim i).1 (lim i).2 (c.u i) kv K free := by
  unfold stageGains at h
  split at h
  · rw [hlim] at h
    exact constrainedGains_limits hL hQ hlu h
  · rename_i h0
    have : m i = 0 := by omega
    have hE : IsEmpty (Fin (m i)) := by rw [this]; infer_instance
    exact ⟨∅, fun r => hE.elim r, fun r => hE.elim r, fun r => hE.elim r, fun r => hE.elim r⟩

/-- Without the exactness of the factorisation the feedforward terms still keep the inputs within the limits. -/
theorem stageGains_within (hw : cfg.withConstraint = true) (hlim : S.lim = some lim)
    {c : Ctrl n m ℝ} {g : Gains n m ℝ} {i : ℕ} {Q : QData n (m i) ℝ}
    (hlu : ∀ r, (lim i).1 r ≤ (lim i).2 r) {kv : Vec (m i) ℝ} {K : Mat (m i) n ℝ}
    (h : stageGains L N cfg S c g i Q = .ok (some (kv, K))) :
    ∀ r, (lim i).1 r ≤ c.u i r + kv r ∧ c.u i r + kv r ≤ (lim i).2 r := by
  unfold stageGains at h
  split at h
  · rw [hlim] at h
    dsimp only at h
    rcases constrainedGains_out (L := L) Q (lim i).1 (lim i).2 (c.u i) (initialK N g i) with h' | ⟨r, hr, h'⟩
    · rw [h'.1] at h; cases h
    have hbox := BoxQP.C01_result_in_box_real (r := r) (fun j => by
      show (lim i).1 j - c.u i j ≤ (lim i).2 j - c.u i j
      linarith [hlu j]) hr
    have hx : kv = r.x := by
      rcases h' with h' | h' | h'
      · rw [h'.2] at h; cases h
      · rw [h'.2.2] at h
        simp only [Res.ok.injEq, Option.some.injEq] at h
        exact (Prod.ext_iff.1 h).1.symm
      · rw [h'.2.2.2] at h
        simp only [Res.ok.injEq, Option.some.injEq] at h
        exact (Prod.ext_iff.1 h).1.symm
    intro j
    have := hbox j
    simp only [Pi.sub_apply] at this
    rw [hx]
    constructor <;> linarith [this.1, this.2]
  · rename_i h0
    have : m i = 0 := by omega
    have hE : IsEmpty (Fin (m i)) := by rw [this]; infer_instance
    exact fun r => hE.elim r

/-- **C27** After every successful regularisation loop, at every stage with limits `lower ≤ upper`: the feedforward term
keeps the input within the limits; inputs outside the free set are sent exactly to a limit and have a zero feedback
row; and on the free set the feedback solves the reduced system of the regularised matrices of that stage. -/
theorem C27_gains (hL : L.Exact) (hw : cfg.withConstraint = true) (hlim : S.lim = some lim) {iter : ℕ}
    {s s2 : Solver n m ℝ} (hb : bwSearch L N cfg S (startIter N cfg S iter s) = (s2, .ok true))
    (hLs : ∀ j < N, ((calcDerivs N cfg S s.ctrl s.derivs).L j).Luu.IsSymm)
    (hVs : (calcDerivs N cfg S s.ctrl s.derivs).V.Vxx.IsSymm)
    (hlu : ∀ i < N, ∀ r, (lim i).1 r ≤ (lim i).2 r) :
    ∃ V : ℕ → VDeriv n ℝ, V N = s2.derivs.V ∧
      ∀ j < N, V j = updateV (calcQ cfg s2.lambda (s2.derivs.F j) (s2.derivs.L j) (V (j + 1))) (s2.gains.k j) (s2.gains.K j) ∧
        ∃ free, LimitGains (calcQ cfg s2.lambda (s2.derivs.F j) (s2.derivs.L j) (V (j + 1))) (lim j).1 (lim j).2
          (s.ctrl.u j) (s2.gains.k j) (s2.gains.K j) free := by
  obtain ⟨h1, h2, _, V, h3, h4, _⟩ := bwSearch_chain hb
  refine ⟨V, h3, fun j hj => ⟨h4.value j hj, ?_⟩⟩
  obtain ⟨g', _, h5⟩ := h4.gain j hj
  have hV : (V N).Vxx.IsSymm := by rw [h3, h2]; exact hVs
  exact stageGains_limits hL hw hlim (calcQ_QuuF_symm (h4.symm hV hj) (by rw [h2]; exact hLs j hj)) (hlu j hj) h5

/-! ## C20 -/

/-- The first input is within its limits. -/
def FirstIn (lim : (i : ℕ) → Vec (m i) ℝ × Vec (m i) ℝ) (c : Ctrl n m ℝ) : Prop :=
  ∀ r, (lim 0).1 r ≤ c.u 0 r ∧ c.u 0 r ≤ (lim 0).2 r

/-- Input `j` of a candidate before the feedback is added stays within the limits. -/
theorem feedforward_within (hw : cfg.withConstraint = true) (hlim : S.lim = some lim) {iter : ℕ}
    {s s2 : Solver n m ℝ} (hb : bwSearch L N cfg S (startIter N cfg S iter s) = (s2, .ok true)) {j : ℕ} (hj : j < N)
    (hin : ∀ r, (lim j).1 r ≤ s.ctrl.u j r ∧ s.ctrl.u j r ≤ (lim j).2 r) {a : ℝ} (ha : 0 ≤ a ∧ a ≤ 1) :
    ∀ r, (lim j).1 r ≤ s.ctrl.u j r + a * s2.gains.k j r ∧ s.ctrl.u j r + a * s2.gains.k j r ≤ (lim j).2 r := by
  obtain ⟨h1, h2, _, V, h3, h4, _⟩ := bwSearch_chain hb
  obtain ⟨g', _, h5⟩ := h4.gain j hj
  have := stageGains_within hw hlim (fun r => le_trans (hin r).1 (hin r).2) h5
  intro r
  have h6 := hin r
  have h7 := this r
  have e : s.ctrl.u j r + a * s2.gains.k j r = (1 - a) * s.ctrl.u j r + a * (s.ctrl.u j r + s2.gains.k j r) := by ring
  have ha' : 0 ≤ 1 - a := by linarith [ha.2]
  rw [e]
  constructor
  · nlinarith [mul_le_mul_of_nonneg_left h6.1 ha', mul_le_mul_of_nonneg_left h7.1 ha.1]
  · nlinarith [mul_le_mul_of_nonneg_left h6.2 ha', mul_le_mul_of_nonneg_left h7.2 ha.1]

theorem procOnce_firstIn (hw : cfg.withConstraint = true) (hlim : S.lim = some lim) (hN : 0 < N)
    (hal : ∀ a ∈ cfg.alphaList, 0 ≤ a ∧ a ≤ 1) (iter : ℕ) {s : Solver n m ℝ} (hs : FirstIn lim s.ctrl) :
    FirstIn lim (procOnce L N cfg S iter s).1.ctrl := by
  have hf := bwSearch_frame (L := L) (N := N) (cfg := cfg) (S := S) (startIter N cfg S iter s)
  have := procOnce_out (L := L) (N := N) (cfg := cfg) (S := S) iter s
  generalize procOnce L N cfg S iter s = r at this
  cases this with
  | bwFail s2 hb => rw [hb] at hf; rw [show s2.ctrl = s.ctrl from hf.1]; exact hs
  | err s2 e he hb => rw [hb] at hf; dsimp only; rw [show s2.ctrl = s.ctrl from hf.1]; exact hs
  | small s2 hb hk hl => rw [hb] at hf; dsimp only; rw [show s2.ctrl = s.ctrl from hf.1]; exact hs
  | full s2 hb hk =>
    rw [hb] at hf
    have hc : s2.ctrl = s.ctrl := hf.1
    have hq := finishStep_out (N := N) (cfg := cfg) s.trace
      { Trace.new iter with
        kRelNorm := kRelNorm N s2, alpha := (lineSearch N cfg S s2).alpha, actual := (lineSearch N cfg S s2).actual,
        expected := (lineSearch N cfg S s2).expected, ratio := (lineSearch N cfg S s2).ratio } (lineSearch N cfg S s2) s2
    generalize finishStep N cfg s.trace _ (lineSearch N cfg S s2) s2 = q at hq
    cases hq with
    | reject => show FirstIn lim s2.ctrl; rw [hc]; exact hs
    | accept hsu v hv =>
      obtain ⟨a, ha, h⟩ := lineSearch_success hsu
      show FirstIn lim (lineSearch N cfg S s2).cand
      rw [h]
      show FirstIn lim (forwardPass N S s2.ctrl s2.gains a)
      rw [hc]
      have h0 : (forwardPass N S s.ctrl s2.gains a).u 0 = s.ctrl.u 0 + a • s2.gains.k 0 := by
        rw [forwardPass_u]
        have : (forwardPass N S s.ctrl s2.gains a).x 0 = s.ctrl.x 0 := rfl
        rw [this, sub_self, mulVec_zero, add_zero]
      intro r
      rw [h0]
      exact feedforward_within hw hlim hb hN hs (hal a ha) r

/-- **C21** (partial: one candidate) For a full step, at every stage: before the feedback on the change of state is added every
input is within the limits, however the current inputs are placed; so an input outside the limits must have a nonzero
feedback row (by C27, it is in the free set of the stage's quadratic program). Missing: the inputs in the free set, whose
feedback is added without a check (`C21_fails`). -/
theorem C21_candidate_partial (hw : cfg.withConstraint = true) (hlim : S.lim = some lim) {iter : ℕ}
    {s s2 : Solver n m ℝ} (hb : bwSearch L N cfg S (startIter N cfg S iter s) = (s2, .ok true))
    {j : ℕ} (hj : j < N) (hlu : ∀ r, (lim j).1 r ≤ (lim j).2 r) :
    (∃ v : Vec (m j) ℝ, (∀ r, (lim j).1 r ≤ v r ∧ v r ≤ (lim j).2 r) ∧
      (forwardPass N S s2.ctrl s2.gains 1).u j =
        v + s2.gains.K j *ᵥ ((forwardPass N S s2.ctrl s2.gains 1).x j - s.ctrl.x j)) ∧
    ∀ r, ((forwardPass N S s2.ctrl s2.gains 1).u j r < (lim j).1 r ∨
      (lim j).2 r < (forwardPass N S s2.ctrl s2.gains 1).u j r) → ∃ c, s2.gains.K j r c ≠ 0 := by
  obtain ⟨h1, h2, _, V, h3, h4, _⟩ := bwSearch_chain hb
  obtain ⟨g', _, h5⟩ := h4.gain j hj
  have hin := stageGains_within hw hlim hlu h5
  have hc : s2.ctrl = s.ctrl := h1
  have hu : (forwardPass N S s2.ctrl s2.gains 1).u j =
      (s.ctrl.u j + s2.gains.k j) + s2.gains.K j *ᵥ ((forwardPass N S s2.ctrl s2.gains 1).x j - s.ctrl.x j) := by
    rw [forwardPass_u, one_smul, hc]
  refine ⟨⟨s.ctrl.u j + s2.gains.k j, hin, hu⟩, fun r hr => ?_⟩
  by_contra hne
  push Not at hne
  have h0 : (s2.gains.K j *ᵥ ((forwardPass N S s2.ctrl s2.gains 1).x j - s.ctrl.x j)) r = 0 := by
    simp [Matrix.mulVec, dotProduct, hne]
  have h6 := congrFun hu r
  rw [Pi.add_apply, h0, add_zero] at h6
  rw [h6] at hr
  have h7 : (lim j).1 r ≤ (s.ctrl.u j + s2.gains.k j) r ∧ (s.ctrl.u j + s2.gains.k j) r ≤ (lim j).2 r := hin r
  rcases hr with hr | hr
  · linarith [h7.1]
  · linarith [h7.2]

end Step

variable {n : ℕ} {md : ℝ → ℕ} {P : Callbacks n md} {L : LLT ℝ} {cfg : Config ℝ}
  {lim : (t : ℝ) → Vec (md t) ℝ × Vec (md t) ℝ}
  {dt t0 : ℝ} {o : Obj n ℝ} {x0 : Vec n ℝ} {us : List (Σ k : ℕ, Vec k ℝ)}
  {scratch : Scratch n (fun i => md (timeAt t0 dt i)) ℝ}

/-- Specification: the input `q` has the dimension of time `t` and is within the limits returned for that time. -/
def InLimits (lim : (t : ℝ) → Vec (md t) ℝ × Vec (md t) ℝ) (t : ℝ) (q : Σ k : ℕ, Vec k ℝ) : Prop :=
  ∃ u : Vec (md t) ℝ, q = ⟨md t, u⟩ ∧ ∀ r, (lim t).1 r ≤ u r ∧ u r ≤ (lim t).2 r

/-- **C20** With input limits and all step sizes in `[0, 1]`, if the first given input is within the limits of the current
time then so is the first input of `controlData()` after `solve`, however it ends. -/
theorem C20_first_input (hw : cfg.withConstraint = true) (hal : ∀ a ∈ cfg.alphaList, 0 ≤ a ∧ a ≤ 1)
    (hN : (us.length : ℤ) = cfg.horizon) (hd : DimsOk md t0 dt us)
    (h0 : ∃ q, us[0]? = some q ∧ InLimits lim t0 q) :
    ∃ q, (solve L P (some lim) dt cfg o t0 scratch x0 us).1.control.us[0]? = some q ∧ InLimits lim t0 q := by
  obtain ⟨q, hq, hin⟩ := h0
  have hlen : 0 < us.length := (List.getElem?_eq_some_iff.1 hq).1
  have ht : timeAt t0 dt 0 = t0 := by simp [timeAt]
  rw [solve_valid hN hd]
  -- the invariant, stated for the time `timeAt t0 dt 0`
  have hin' : InLimits lim (timeAt t0 dt 0) q := by rw [ht]; exact hin
  have hstart : FirstIn (fun i => lim (timeAt t0 dt i)) (start P (some lim) dt cfg t0 scratch x0 us).ctrl := by
    obtain ⟨u, rfl, hu⟩ := hin'
    have : (start P (some lim) dt cfg t0 scratch x0 us).ctrl.u 0 = u := by
      show inputAt (m := fun i => md (timeAt t0 dt i)) us 0 = u
      simp [inputAt, hq]
    intro r
    rw [this]
    exact hu r
  have hfin : FirstIn (fun i => lim (timeAt t0 dt i)) (final L P (some lim) dt cfg t0 scratch x0 us).1.ctrl := by
    have step := fun j (s : Solver n (fun i => md (timeAt t0 dt i)) ℝ) =>
      procOnce_firstIn (L := L) (N := us.length) (cfg := cfg) (S := stagesOf P (some lim) t0 dt us.length)
        (lim := fun i => lim (timeAt t0 dt i)) hw rfl hlen hal j (s := s)
    refine optLoop_rule (fun _ s => FirstIn (fun i => lim (timeAt t0 dt i)) s.ctrl)
      (fun q => FirstIn (fun i => lim (timeAt t0 dt i)) q.1.ctrl) _ _ hstart ?_ ?_ (fun s h => h)
    · intro j s s' _ _ hs hp
      have := step j s hs
      rw [hp] at this; exact this
    · intro j s s' e _ _ hs hp _
      have := step j s hs
      rw [hp] at this; exact this
  refine ⟨⟨md (timeAt t0 dt 0), (final L P (some lim) dt cfg t0 scratch x0 us).1.ctrl.u 0⟩, ?_, ?_⟩
  · simp [Ctrl.out, List.getElem?_range hlen]
  · have key : InLimits lim (timeAt t0 dt 0)
        ⟨md (timeAt t0 dt 0), (final L P (some lim) dt cfg t0 scratch x0 us).1.ctrl.u 0⟩ := ⟨_, rfl, hfin⟩
    revert key
    generalize (⟨md (timeAt t0 dt 0), (final L P (some lim) dt cfg t0 scratch x0 us).1.ctrl.u 0⟩ :
      Σ k : ℕ, Vec k ℝ) = p
    rw [ht]
    exact id

end Nmpc.DDP
