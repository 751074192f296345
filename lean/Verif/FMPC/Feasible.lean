import Verif.FMPC.Kkt
import Verif.FMPC.Sim

/-!
# Affine inequality constraints (C76)

With affine inequality constraints (dynamics and costs arbitrary) the residuals `g + s` shrink by a common factor in every iteration.
Since the slacks stay positive, the plans stay strictly inside the constraints once `g + s <= 0`, in particular over a whole sequence of
calls that are warm-started with the previous result, whatever the status of the calls.
-/

set_option linter.unusedSectionVars false

namespace Nmpc.FMPC

open DDP (timeAt)
open Matrix

section Iteration
variable {n : ℕ} {m p : ℕ → ℕ} {L : GainSolver ℝ} {N : ℕ} {cfg : Config ℝ} {S : Stages n m p ℝ} {x0 : Vec n ℝ}

/-- The inequality constraints are affine and the derivative callbacks return their coefficients. -/
structure AffineIneq (S : Stages n m p ℝ) (C : (i : ℕ) → Mat (p i) n ℝ) (D : (i : ℕ) → Mat (p i) (m i) ℝ)
    (c : (i : ℕ) → Vec (p i) ℝ) : Prop where
  g : ∀ i x u, S.g i x u = C i *ᵥ x + D i *ᵥ u + c i
  dgx : ∀ i x u b, (S.dg i x u b).C = C i
  dgu : ∀ i x u b, (S.dg i x u b).D = D i

/-- **C76**, one iteration: all inequality residuals are multiplied by the same factor `1 - alpha_s`, whatever dynamics, costs and
factorisations do. -/
theorem C76_iteration {C : (i : ℕ) → Mat (p i) n ℝ} {D : (i : ℕ) → Mat (p i) (m i) ℝ} {c : (i : ℕ) → Vec (p i) ℝ}
    (hS : AffineIneq S C D c) {iter : ℕ} {w w' : Solver n m p ℝ} (hw : w.var.Pos N)
    (h : procOnce L N cfg S x0 iter w = .ok (w', .iterationContinued)) :
    ∃ alpha : ℝ, 0 < alpha ∧ alpha ≤ 1 ∧
      ∀ i < N, S.g i (w'.var.x i) (w'.var.u i) + w'.var.s i = (1 - alpha) • (S.g i (w.var.x i) (w.var.u i) + w.var.s i) := by
  have := procOnce_out (L := L) (N := N) (cfg := cfg) (S := S) (x0 := x0) iter w
  rw [h] at this
  generalize hx : (Res.ok (w', .iterationContinued) : Res (Solver n m p ℝ × Status)) = x at this
  cases this with
  | ubEps => cases hx
  | succeeded => cases hx
  | backward => cases hx
  | forward => cases hx
  | update e he hk w2 hb w3 hf r hr =>
    cases r with
    | ok r =>
      obtain ⟨b, w4⟩ := r
      have h1 := (backwardPass_frame (L := L) (N := N) (cfg := cfg) (S := S) (traced N x0 iter (prepared N S w e))).1
      rw [hb] at h1
      have h2 := (forwardPass_frame (N := N) (cfg := cfg) (x0 := x0) w2).1
      rw [hf] at h2
      have hv3 : w3.var = w.var := h2.trans h1
      have hw3 : w3.var.Pos N := by rw [hv3]; exact hw
      have hd : w3.delta = forwardDelta N w2.eps x0 w2.var w2.coeff w2.term := by
        unfold forwardPass at hf
        exact congrArg (fun q => q.2.delta) hf.symm
      obtain ⟨rfl, -, aS, aNu, a1, a2, -, -, g1, g2, -⟩ := updateVariables_pos hw3 hr
      cases hx
      rw [hv3, hd] at g1 g2
      refine ⟨aS, a1, a2, fun i hi => ?_⟩
      have h3 := backwardPass_coeff (L := L) (N := N) (cfg := cfg) (S := S) (traced N x0 iter (prepared N S w e)) i
      rw [hb] at h3
      have h4 : (traced N x0 iter (prepared N S w e)).coeff i = calcCoeff S w.var i (w.coeff i) := if_pos hi
      rw [h4] at h3
      have hin := forwardDelta_ineq (N := N) (x0 := x0) (eps := w2.eps) (v := w2.var) (co := w2.coeff) (term := w2.term) i
      dsimp only at hin h3
      rw [h3.2.1, h3.2.2.2.2.1] at hin
      have e1 : (calcCoeff S w.var i (w.coeff i)).G.C = C i := hS.dgx _ _ _ _
      have e2 : (calcCoeff S w.var i (w.coeff i)).G.D = D i := hS.dgu _ _ _ _
      have e3 : (calcCoeff S w.var i (w.coeff i)).gbar = S.g i (w.var.x i) (w.var.u i) + w.var.s i := rfl
      rw [e1, e2, e3] at hin
      have : S.g i (w4.var.x i) (w4.var.u i) + w4.var.s i = (S.g i (w.var.x i) (w.var.u i) + w.var.s i) + aS •
          (C i *ᵥ (forwardDelta N w2.eps x0 w2.var w2.coeff w2.term).x i +
           D i *ᵥ (forwardDelta N w2.eps x0 w2.var w2.coeff w2.term).u i +
           (forwardDelta N w2.eps x0 w2.var w2.coeff w2.term).s i) := by
        rw [(g2 i (by omega)).1, (g1 i hi).2.2, (g1 i hi).1, hS.g, hS.g, mv_step, mv_step]
        module
      rw [this, hin]
      module
    | _ => cases hx

end Iteration

section Solve
variable {n : ℕ} {md pd : ℝ → ℕ} {L : GainSolver ℝ} {P : Callbacks n md pd} {dt : ℝ} {cfg : Config ℝ} {o : Obj n ℝ}
  {t0 : ℝ} {sc : Scratch n (fun i => md (timeAt t0 dt i)) (fun i => pd (timeAt t0 dt i)) ℝ} {x0 : Vec n ℝ}
  {init : VarL n ℝ}

/-- **C76**, one call: the inequality residuals of the returned point are a common multiple in [0,1] of those of the initial point,
and its slacks are positive. -/
theorem C76_solve {C : (i : ℕ) → Mat (pd (timeAt t0 dt i)) n ℝ} {D : (i : ℕ) → Mat (pd (timeAt t0 dt i)) (md (timeAt t0 dt i)) ℝ}
    {c : (i : ℕ) → Vec (pd (timeAt t0 dt i)) ℝ} (hS : AffineIneq (stagesOf P t0 dt cfg.horizon.toNat) C D c)
    (hp : cfg.initComplementary = true ∨ init.Pos) {o' : Obj n ℝ} {st : Status}
    (h : solve L P dt cfg o t0 sc x0 init = (o', .ok st)) :
    ∃ (vl : VarL n ℝ) (v w : Var n (fun i => md (timeAt t0 dt i)) (fun i => pd (timeAt t0 dt i)) ℝ), startVar P dt cfg t0 init = .ok vl ∧
      v = (vl.toVar : Var n (fun i => md (timeAt t0 dt i)) (fun i => pd (timeAt t0 dt i)) ℝ) ∧
      o'.var = w.out cfg.horizon.toNat ∧ (∀ i < cfg.horizon.toNat, ∀ j, 0 < w.s i j) ∧ ∃ γ : ℝ, 0 ≤ γ ∧ γ ≤ 1 ∧
        ∀ i < cfg.horizon.toNat, P.ineqConst (timeAt t0 dt i) (w.x i) (w.u i) + w.s i =
          γ • (P.ineqConst (timeAt t0 dt i) (v.x i) (v.u i) + v.s i) := by
  obtain ⟨v, w, hv, hc, hr, rfl⟩ := solve_ok h
  obtain ⟨st', ho, hst, _⟩ := runSolver_ok hr
  obtain ⟨hl, -, -⟩ := (checkVariable_iff (md := md) (pd := pd) (t0 := t0) (dt := dt) (horizon := cfg.horizon) v).2.2.1 hc
  have hN : cfg.horizon.toNat = v.us.length := by have := hl.2.1; omega
  rw [hN] at hS ⊢
  have h0 := solve_pos_start (o := o) (sc := sc) hp hv hc
  refine ⟨v, v.toVar, w.var, hv, rfl, rfl, ?_⟩
  have key : ∀ (r it : ℕ) (w0 w' : Solver n (fun i => md (timeAt t0 dt i)) (fun i => pd (timeAt t0 dt i)) ℝ) st st',
      w0.var.Pos v.us.length →
      optLoop L v.us.length cfg (stagesOf P t0 dt v.us.length) x0 r it st w0 = .ok (w', st') →
      w'.var.Pos v.us.length ∧ ∃ γ : ℝ, 0 ≤ γ ∧ γ ≤ 1 ∧
        ∀ i < v.us.length, P.ineqConst (timeAt t0 dt i) (w'.var.x i) (w'.var.u i) + w'.var.s i =
          γ • (P.ineqConst (timeAt t0 dt i) (w0.var.x i) (w0.var.u i) + w0.var.s i) := by
    intro r it w0 w' st st' hw hopt
    refine (optLoop_rule (fun _ _ w1 => w1.var.Pos v.us.length ∧
      ∃ γ : ℝ, 0 ≤ γ ∧ γ ≤ 1 ∧
        ∀ i < v.us.length, P.ineqConst (timeAt t0 dt i) (w1.var.x i) (w1.var.u i) + w1.var.s i =
          γ • (P.ineqConst (timeAt t0 dt i) (w0.var.x i) (w0.var.u i) + w0.var.s i))
      (fun _ w1 => w1.var.Pos v.us.length ∧ ∃ γ : ℝ, 0 ≤ γ ∧ γ ≤ 1 ∧
        ∀ i < v.us.length, P.ineqConst (timeAt t0 dt i) (w1.var.x i) (w1.var.u i) + w1.var.s i =
          γ • (P.ineqConst (timeAt t0 dt i) (w0.var.x i) (w0.var.u i) + w0.var.s i))
      ⟨hw, 1, zero_le_one, le_refl _, by simp⟩ ?_ (fun _ _ h => h) hopt)
    intro it st1 w1 w2 st2 _ _ hI hp
    obtain ⟨hpos, γ, γ0, γ1, k3⟩ := hI
    split
    · rename_i hh
      subst hh
      obtain ⟨al, a1, a2, g3⟩ := C76_iteration hS hpos hp
      refine ⟨(procOnce_pos hpos hp).1, (1 - al) * γ, mul_nonneg (by linarith) γ0, by nlinarith, ?_⟩
      intro i hi
      have := g3 i hi
      dsimp only [stagesOf] at this
      rw [this, k3 i hi, smul_smul]
    · rename_i hh
      obtain ⟨e, _, _, _, hvar, _⟩ := procOnce_frame hp
      rw [hvar hh]
      exact ⟨hpos, γ, γ0, γ1, k3⟩
  obtain ⟨k1, k2⟩ := key _ _ _ _ _ _ h0 ho
  exact ⟨k1.1, k2⟩

end Solve

/-! ## Sequences of calls for a problem with fixed dimensions -/

section Fixed
variable {n m p : ℕ} {L : GainSolver ℝ} {g : Vec n ℝ → Vec m ℝ → Vec p ℝ} {r : Vec p ℝ}

/-- The constraint functions of the problem are `g` at all times, affine, with true derivatives. -/
structure IneqOf (g : Vec n ℝ → Vec m ℝ → Vec p ℝ) (P : Callbacks n (fun _ : ℝ => m) (fun _ => p)) : Prop where
  eq : ∀ t x u, P.ineqConst t x u = g x u
  affine : ∃ (C : Mat p n ℝ) (D : Mat p m ℝ) (c : Vec p ℝ), (∀ x u, g x u = C *ᵥ x + D *ᵥ u + c) ∧
    ∀ t x u b, P.ineqConstDeriv t x u b = ⟨C, D⟩

/-- The residuals `g + s` of a list of variables are at most `r`. -/
def ResLe (g : Vec n ℝ → Vec m ℝ → Vec p ℝ) (r : Vec p ℝ) (v : VarL n ℝ) : Prop :=
  ∀ (i : ℕ) (x : Vec n ℝ) (u : Vec m ℝ) (s : Vec p ℝ), v.xs[i]? = some x → v.us[i]? = some ⟨m, u⟩ → v.ss[i]? = some ⟨p, s⟩ →
    ∀ j, g x u j + s j ≤ r j

/-- All stages of the plan satisfy `g < r`. -/
def PlanBelow (g : Vec n ℝ → Vec m ℝ → Vec p ℝ) (r : Vec p ℝ) (v : VarL n ℝ) : Prop :=
  ∀ (i : ℕ) (x : Vec n ℝ) (u : Vec m ℝ), v.xs[i]? = some x → v.us[i]? = some ⟨m, u⟩ → ∀ j, g x u j < r j

theorem out_us {m p : ℕ → ℕ} {N : ℕ} {w : Var n m p ℝ} {i k : ℕ} {u : Vec k ℝ} (h : (w.out N).us[i]? = some ⟨k, u⟩) :
    i < N ∧ (⟨m i, w.u i⟩ : Σ k, Vec k ℝ) = ⟨k, u⟩ := by
  simp only [Var.out, List.getElem?_map, Option.map_eq_some_iff] at h
  obtain ⟨a, h1, h2⟩ := h
  obtain ⟨h3, h4⟩ := List.getElem?_eq_some_iff.1 h1
  rw [List.length_range] at h3
  rw [List.getElem_range] at h4
  subst h4
  exact ⟨h3, h2⟩

/-- **C76**, one call of `solve` with fixed dimensions: with positive slacks and multipliers and residuals at most `r >= 0`, the
returned plan satisfies `g < r` at every stage, and can be used as the next warm start. -/
theorem C76_call {P : Callbacks n (fun _ : ℝ => m) (fun _ => p)} {dt : ℝ} {cfg : Config ℝ} {o : Obj n ℝ} {t0 : ℝ}
    {sc : Scratch n (fun _ => m) (fun _ => p) ℝ} {x0 : Vec n ℝ} {init : VarL n ℝ} (hP : IneqOf g P)
    (hic : cfg.initComplementary = false) (hp : init.Pos) (hr : 0 ≤ r) (hi : ResLe g r init) {o' : Obj n ℝ} {st : Status}
    (h : solve L P dt cfg o t0 sc x0 init = (o', .ok st)) : ResLe g r o'.var ∧ PlanBelow g r o'.var ∧ o'.var.Pos := by
  obtain ⟨C, D, c, hg, hd⟩ := hP.affine
  have hS : AffineIneq (stagesOf P t0 dt cfg.horizon.toNat) (fun _ => C) (fun _ => D) (fun _ => c) :=
    ⟨fun i x u => (hP.eq _ x u).trans (hg x u), fun i x u b => congrArg GDeriv.C (hd _ x u b), fun i x u b => congrArg GDeriv.D (hd _ x u b)⟩
  have hsh := solve_shape h
  obtain ⟨vl, v, w, hv, rfl, ho, hpos, γ, γ0, γ1, hγ⟩ := C76_solve hS (.inr hp) h
  have hvl : vl = init := by
    unfold startVar at hv
    rw [hic] at hv
    exact (Res.ok.inj hv).symm
  subst hvl
  have hlen : LengthsOk cfg.horizon vl := by
    obtain ⟨v', w', hv', hc, _, _⟩ := solve_ok h
    rw [hv] at hv'
    obtain rfl := Res.ok.inj hv'
    exact ((checkVariable_iff (md := fun _ => m) (pd := fun _ => p) (t0 := t0) (dt := dt) (horizon := cfg.horizon) vl).2.2.1 hc).1
  have hdim : DimsOk (fun _ => m) (fun _ => p) t0 dt vl := by
    obtain ⟨v', w', hv', hc, _, _⟩ := solve_ok h
    rw [hv] at hv'
    obtain rfl := Res.ok.inj hv'
    exact ((checkVariable_iff (md := fun _ => m) (pd := fun _ => p) (t0 := t0) (dt := dt) (horizon := cfg.horizon) vl).2.2.1 hc).2.1
  -- residuals of the returned point
  have hres : ∀ i < cfg.horizon.toNat, ∀ j, g (w.x i) (w.u i) j + w.s i j ≤ r j := by
    intro i hiN j
    have e := congrFun (hγ i hiN) j
    simp only [hP.eq, Pi.add_apply, Pi.smul_apply, smul_eq_mul] at e
    have hxs : i < vl.xs.length := by have := hlen.1; omega
    have hus : i < vl.us.length := by have := hlen.2.1; omega
    have hss : i < vl.ss.length := by have := hlen.2.2.2.1; omega
    have hu1 := hdim.1 i hus
    have hs1 := hdim.2.1 i hss
    have hb : g (vl.toVar (m := fun _ => m) (p := fun _ => p) |>.x i) (vl.toVar (m := fun _ => m) (p := fun _ => p) |>.u i) j +
        (vl.toVar (m := fun _ => m) (p := fun _ => p)).s i j ≤ r j := by
      refine hi i _ _ _ ?_ ?_ ?_ j
      · simp only [VarL.toVar, stateAt, List.getElem?_eq_getElem hxs]
      · rw [List.getElem?_eq_getElem hus]
        simp only [VarL.toVar, DDP.inputAt, List.getElem?_eq_getElem hus]
        generalize vl.us[i] = q at hu1
        obtain ⟨k, u⟩ := q
        dsimp only at hu1
        subst hu1
        simp
      · rw [List.getElem?_eq_getElem hss]
        simp only [VarL.toVar, DDP.inputAt, List.getElem?_eq_getElem hss]
        generalize vl.ss[i] = q at hs1
        obtain ⟨k, u⟩ := q
        dsimp only at hs1
        subst hs1
        simp
    rw [e]
    have h0 := hr j
    simp only [Pi.zero_apply] at h0
    nlinarith [mul_le_mul_of_nonneg_left hb γ0]
  have hx : ∀ {i x}, i < cfg.horizon.toNat → (w.out cfg.horizon.toNat).xs[i]? = some x → w.x i = x := by
    intro i x hiN h1
    simp only [Var.out, List.getElem?_map, Option.map_eq_some_iff] at h1
    obtain ⟨a, h2, h3⟩ := h1
    obtain ⟨h4, h5⟩ := List.getElem?_eq_some_iff.1 h2
    rw [List.getElem_range] at h5
    rw [h5]
    exact h3
  refine ⟨?_, ?_, (C28_positive (.inr hp) h).1⟩
  · rw [ho]
    intro i x u s h1 h2 h3 j
    obtain ⟨hiN, hu⟩ := out_us h2
    have hu := eq_of_heq (Sigma.mk.inj hu).2
    have hs : w.s i = s := by
      simp only [Var.out, List.getElem?_map, Option.map_eq_some_iff] at h3
      obtain ⟨a, h4, h5⟩ := h3
      obtain ⟨h6, h7⟩ := List.getElem?_eq_some_iff.1 h4
      rw [List.getElem_range] at h7
      rw [h7]
      exact eq_of_heq (Sigma.mk.inj h5).2
    rw [← hx hiN h1, ← hu, ← hs]
    exact hres i hiN j
  · rw [ho]
    intro i x u h1 h2 j
    obtain ⟨hiN, hu⟩ := out_us h2
    have hu := eq_of_heq (Sigma.mk.inj hu).2
    rw [← hx hiN h1, ← hu]
    have := hres i hiN j
    have := hpos i hiN j
    linarith

/-- **C76**, receding-horizon loop: every input applied satisfies, together with the planned state of its stage, `g < r`. -/
theorem C76_loop {P : Callbacks n (fun _ : ℝ => m) (fun _ => p)} {plant : ℝ → Vec n ℝ → Vec m ℝ → Vec n ℝ} {dt simDt : ℝ}
    {cfg : Config ℝ} {scr : ℕ → Scratch n (fun _ => m) (fun _ => p) ℝ} {endT t0 : ℝ} {o : Obj n ℝ} {x0 : Vec n ℝ} {init : VarL n ℝ}
    (hP : IneqOf g P) (hic : cfg.initComplementary = false) (hp : init.Pos) (hr : 0 ≤ r) (hi : ResLe g r init)
    {s : Mpc n m ℝ} (h : mpcLoop L P plant dt simDt cfg scr endT o t0 x0 init = .ok s) :
    (∀ e ∈ s.log, ∃ x : Vec n ℝ, ∀ j, g x e.u j < r j) ∧ (0 < s.k → PlanBelow g r s.var) := by
  have h' : loopM (mpcStep L P plant dt simDt cfg scr endT) { k := 0, t := t0, x := x0, var := init, obj := o, log := [] } =
      some (.ok s) := by
    unfold mpcLoop loopR at h
    split at h
    · rename_i q hq; rw [hq, h]
    · cases h
  have key := loopM_invariant (step := mpcStep L P plant dt simDt cfg scr endT)
    (fun s : Mpc n m ℝ => s.var.Pos ∧ ResLe g r s.var ∧ (∀ e ∈ s.log, ∃ x : Vec n ℝ, ∀ j, g x e.u j < r j) ∧ (0 < s.k → PlanBelow g r s.var))
    (fun q => ∀ s, q = .ok s → (∀ e ∈ s.log, ∃ x : Vec n ℝ, ∀ j, g x e.u j < r j) ∧ (0 < s.k → PlanBelow g r s.var)) ?_ ?_
    ⟨hp, hi, by simp, by simp⟩ h'
  · exact key s rfl
  · rintro s s' ⟨h1, h2, h3, -⟩ hstep
    unfold mpcStep at hstep
    split at hstep
    · split at hstep
      · rename_i o' st hq
        obtain ⟨k1, k2, k3⟩ := C76_call hP hic h1 hr h2 hq
        have hsh := solve_shape hq
        unfold mpcNext at hstep
        split at hstep
        · rename_i k u tr hu htr
          split at hstep
          · rename_i hk
            subst hk
            cases hstep
            refine ⟨k3, k1, ?_, fun _ => k2⟩
            intro e he
            rcases List.mem_append.1 he with he | he
            · exact h3 e he
            · rw [List.mem_singleton.1 he]
              have hus : 0 < o'.var.us.length := (List.getElem?_eq_some_iff.1 hu).1
              have hxs : 0 < o'.var.xs.length := by have := hsh.1.1; have := hsh.1.2.1; omega
              exact ⟨o'.var.xs[0], fun j => k2 0 _ u (List.getElem?_eq_getElem hxs) hu j⟩
          · cases hstep
        · cases hstep
      all_goals cases hstep
    · cases hstep
  · rintro s q ⟨h1, h2, h3, h4⟩ hstep s' rfl
    unfold mpcStep at hstep
    split at hstep
    · split at hstep
      · unfold mpcNext at hstep
        split at hstep
        · split at hstep <;> cases hstep
        · cases hstep
      all_goals cases hstep
    · cases hstep
      exact ⟨h3, h4⟩

/-- **C76**, interactive simulation: the input applied at a state is the first input of a plan that satisfies `g < r`, plus feedback. -/
theorem C76_simulation {P : ℝ → Callbacks n (fun _ : ℝ => m) (fun _ => p)} {dt : ℝ} {cfg : Config ℝ}
    {scr : ℕ → Scratch n (fun _ => m) (fun _ => p) ℝ} {plant : ℝ → Vec n ℝ → Vec m ℝ → Vec n ℝ} {simDt endT : ℝ}
    {env : ℕ → List (Callback ℝ)} {x0 : Vec n ℝ} {o : Obj n ℝ}
    (hP : ∀ ref, IneqOf g (P ref)) (hic : cfg.initComplementary = false) (hr : 0 ≤ r) (hg : ∀ j, g 0 0 j + 1 ≤ r j)
    (hdt : 0 < simDt) (hN : 0 < cfg.horizon) (hm : 0 < cfg.maxIter)
    (hne : NoEmpty cfg.horizon.toNat n (fun _ => p) cfg) (K : Mat m n ℝ) (xp : Vec n ℝ) :
    ∃ s, simLoop (ctrlOf L P dt cfg scr) plant simDt endT env x0 (simCtrlInit m p cfg.horizon.toNat K xp o) = .ok s ∧
      s.k = ⌈endT / simDt⌉₊ ∧ Simulated plant simDt env (fun x u => u = 0 ∨ ∃ (xb : Vec n ℝ) (ub : Vec m ℝ) (K : Mat m n ℝ),
        u = ub + K *ᵥ (xb - x) ∧ ∀ j, g xb ub j < r j) x0 s ∧ (s.ctrl.first = false → PlanBelow g r s.ctrl.var) := by
  have hw := warmOk_reset (n := n) (m := m) (p := p) cfg.horizon.toNat 0 0 0 1 1
  rw [show ((cfg.horizon.toNat : ℕ) : ℤ) = cfg.horizon by omega] at hw
  have hB : ResLe g r (simCtrlInit m p cfg.horizon.toNat K xp o).var := by
    intro i x u s h1 h2 h3 j
    simp only [simCtrlInit, resetVar] at h1 h2 h3
    have h1 := (List.mem_replicate.1 (List.mem_of_getElem? h1)).2
    have h2 := eq_of_heq (Sigma.mk.inj (List.mem_replicate.1 (List.mem_of_getElem? h2)).2).2
    have h3 := eq_of_heq (Sigma.mk.inj (List.mem_replicate.1 (List.mem_of_getElem? h3)).2).2
    subst h1 h2 h3
    exact hg j
  have hsolve : ∀ ref t x c, (CtrlOk m p cfg.horizon c ∧ ResLe g r c.var ∧ (c.first = true ∧ c.u = 0 ∨
      c.first = false ∧ (∀ j, g c.planX c.u j < r j) ∧ PlanBelow g r c.var)) → ∃ c', (ctrlOf L P dt cfg scr).solve ref t x c = .ok c' ∧
      (CtrlOk m p cfg.horizon c' ∧ ResLe g r c'.var ∧ (c'.first = true ∧ c'.u = 0 ∨
      c'.first = false ∧ (∀ j, g c'.planX c'.u j < r j) ∧ PlanBelow g r c'.var)) := by
    rintro ref t x c ⟨hc, hres, -⟩
    obtain ⟨c', h1, h2⟩ := timerCallback_ok (L := L) (P := P) (dt := dt) (scr := scr) hN hm hne ref t x c hc
    refine ⟨c', h1, h2, ?_⟩
    unfold timerCallback at h1
    dsimp only at h1
    generalize hq : solve L (P ref) dt cfg c.obj t (scr c.calls) x c.var = q at h1
    obtain ⟨o', st⟩ := q
    cases st with
    | ok st =>
      obtain ⟨k1, k2, k3⟩ := C76_call (hP ref) hic hc.pos hr hres hq
      rw [Res.bind_ok] at h1
      generalize firstGain L (P ref) dt cfg c.obj t (scr c.calls) x c.var = fg at h1
      cases fg with
      | ok K =>
        rw [Res.bind_ok] at h1
        split at h1
        · rename_i k u xp' hu hx
          split at h1
          · rename_i hk
            subst hk
            cases h1
            exact ⟨k1, .inr ⟨rfl, fun j => k2 0 _ u hx hu j, k2⟩⟩
          · cases h1
        · cases h1
      | _ => cases h1
    | _ => cases h1
  have hin : ∀ (c : SimCtrl n m ℝ) (x : Vec n ℝ), (CtrlOk m p cfg.horizon c ∧ ResLe g r c.var ∧ (c.first = true ∧ c.u = 0 ∨
      c.first = false ∧ (∀ j, g c.planX c.u j < r j) ∧ PlanBelow g r c.var)) → ((ctrlOf L P dt cfg scr).input c x = 0 ∨
      ∃ (xb : Vec n ℝ) (ub : Vec m ℝ) (K : Mat m n ℝ), (ctrlOf L P dt cfg scr).input c x = ub + K *ᵥ (xb - x) ∧ ∀ j, g xb ub j < r j) := by
    rintro c x ⟨-, -, hc⟩
    simp only [ctrlOf, appliedInput]
    rcases hc with ⟨h1, h2⟩ | ⟨h1, h2, -⟩
    · left
      rw [if_pos h1, h2]
    · right
      rw [if_neg (by rw [h1]; simp)]
      exact ⟨c.planX, c.u, c.K, by rw [mulVec_real], h2⟩
  obtain ⟨s, h1, h3, h4, h5⟩ := simLoop_ok (C := ctrlOf L P dt cfg scr) (plant := plant) (endT := endT) (env := env)
    (x0 := x0) (c0 := simCtrlInit m p cfg.horizon.toNat K xp o)
    (U := fun x u => u = 0 ∨ ∃ (xb : Vec n ℝ) (ub : Vec m ℝ) (K : Mat m n ℝ), u = ub + K *ᵥ (xb - x) ∧ ∀ j, g xb ub j < r j) hdt
    ⟨⟨hw, pos_reset _ _ _ _ one_pos one_pos⟩, hB, .inl ⟨rfl, rfl⟩⟩ hsolve hin
  refine ⟨s, h1, h3, h4, fun hf => ?_⟩
  rcases h5.2.2 with ⟨h, -⟩ | ⟨-, -, h⟩
  · rw [hf] at h; cases h
  · exact h

end Fixed

end Nmpc.FMPC
