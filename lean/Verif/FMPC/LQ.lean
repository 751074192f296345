import Verif.FMPC.Newton

/-!
# FMPC: convex problems never fail (C31), equality-constrained LQ problems take one Newton step (C43)
-/

set_option linter.unusedSectionVars false

namespace Nmpc.FMPC

open DDP (FDeriv LDeriv VDeriv timeAt)
open Matrix Finset

section Stage
variable {n : ℕ} {m p : ℕ → ℕ} {L : GainSolver ℝ} {N : ℕ} {cfg : Config ℝ} {S : Stages n m p ℝ} {x0 : Vec n ℝ}

/-- The Hessians returned by the callbacks are those of a convex problem at every point. -/
structure ConvexCosts (N : ℕ) (S : Stages n m p ℝ) : Prop where
  xx : ∀ i < N, ∀ x u b, (S.dl i x u b).Lxx.IsSymm
  uu : ∀ i < N, ∀ x u b, (S.dl i x u b).Luu.PosDef
  joint : ∀ i < N, ∀ x u b, ∀ (y : Vec n ℝ) (z : Vec (m i) ℝ),
    0 ≤ y ⬝ᵥ ((S.dl i x u b).Lxx *ᵥ y) + 2 * (y ⬝ᵥ ((S.dl i x u b).Lxu *ᵥ z)) + z ⬝ᵥ ((S.dl i x u b).Luu *ᵥ z)
  term : ∀ x b, (S.dφ x b).Vxx.PosSemidef

theorem ConvexCosts.model (h : ConvexCosts N S) (w : Solver n m p ℝ) (e : ℝ) (iter : ℕ) :
    ConvexModel N (traced N x0 iter (prepared N S w e)).coeff (traced N x0 iter (prepared N S w e)).term := by
  refine ⟨fun i hi => ?_, h.term _ _⟩
  have hc : (traced N x0 iter (prepared N S w e)).coeff i = calcCoeff S w.var i (w.coeff i) := if_pos hi
  rw [hc]
  exact ⟨h.xx i hi _ _ _, h.uu i hi _ _ _, h.joint i hi _ _ _⟩

/-- **C30**, one iteration of a convex problem: the direction solves the Newton system of the perturbed KKT conditions at
the current point, and the iteration either succeeds or takes a step (or the merit function is undefined). -/
theorem C30_iteration (hL : ExactGain L) (hdt : 0 < S.dt) (hc : ConvexCosts N S) {iter : ℕ} {w w' : Solver n m p ℝ}
    {st : Status} (hw : w.var.Pos N) (h : procOnce L N cfg S x0 iter w = .ok (w', st)) :
    st = .succeeded ∨ (st = .iterationContinued ∧
      NewtonSystem N S.dt w'.eps x0 w.var (fun i => if i < N then calcCoeff S w.var i (w.coeff i) else w.coeff i)
        (calcTerm N S w.var w.term) w'.delta) := by
  have := procOnce_out (L := L) (N := N) (cfg := cfg) (S := S) (x0 := x0) iter w
  rw [h] at this
  generalize hx : (Res.ok (w', st) : Res (Solver n m p ℝ × Status)) = x at this
  have cv := fun e => C30_convex (cfg := cfg) (x0 := x0) hL hdt (w := traced N x0 iter (prepared N S w e)) hw
    (hc.model w e iter)
  cases this with
  | ubEps => cases hx
  | succeeded => cases hx; exact .inl rfl
  | backward e he hk hb =>
    obtain ⟨w2, w3, h1, _⟩ := cv e
    rw [h1] at hb; cases hb
  | forward e he hk w2 hb hf =>
    rw [forwardPass_true] at hf; cases hf
  | update e he hk w2 hb w3 hf r hr =>
    right
    obtain ⟨w2', w3', h1, h2, h3⟩ := cv e
    rw [hb] at h1; cases h1
    rw [hf] at h2; cases h2
    cases r with
    | ok r =>
      obtain ⟨b, w4⟩ := r
      have g1 := (backwardPass_frame (L := L) (N := N) (cfg := cfg) (S := S) (traced N x0 iter (prepared N S w e)))
      rw [hb] at g1
      have g2 := (forwardPass_frame (N := N) (cfg := cfg) (x0 := x0) w2)
      rw [hf] at g2
      have hw3 : w3.var.Pos N := by
        have : w3.var = w.var := g2.1.trans g1.1
        rw [this]; exact hw
      have hout := updateVariables_out (N := N) (cfg := cfg) (S := S) (x0 := x0) w3
      obtain ⟨rfl, -⟩ := updateVariables_pos hw3 hr
      cases hx
      refine ⟨rfl, ?_⟩
      have hde : w4.delta = w3.delta ∧ w4.eps = e := by
        rw [hr] at hout
        generalize hy : (Res.ok (true, w4) : Res (Bool × Solver n m p ℝ)) = y at hout
        cases hout with
        | reject => cases hy
        | step => cases hy; exact ⟨rfl, g2.2.1.trans g1.2.1⟩
        | ub => cases hy
        | diverge => cases hy
      rw [hde.1, hde.2]
      exact h3
    | _ => cases hx

end Stage

section Solve
variable {n : ℕ} {md pd : ℝ → ℕ} {L : GainSolver ℝ} {P : Callbacks n md pd} {dt : ℝ} {cfg : Config ℝ} {o : Obj n ℝ}
  {t0 : ℝ} {sc : Scratch n (fun i => md (timeAt t0 dt i)) (fun i => pd (timeAt t0 dt i)) ℝ} {x0 : Vec n ℝ}
  {init : VarL n ℝ}

/-- **C31**, over a whole call: for convex costs, `dt > 0` and positive initial slacks and multipliers, `solve` never
reports an error. -/
theorem C31_solve (hL : ExactGain L) (hdt : 0 < dt) (hc : ConvexCosts cfg.horizon.toNat (stagesOf P t0 dt cfg.horizon.toNat))
    (hp : cfg.initComplementary = true ∨ init.Pos) {o' : Obj n ℝ} {st : Status}
    (h : solve L P dt cfg o t0 sc x0 init = (o', .ok st)) :
    st = .succeeded ∨ st = .maxIterationReached ∨ (st = .uninitialized ∧ cfg.maxIter ≤ 0) := by
  obtain ⟨v, w, hv, hck, hr, rfl⟩ := solve_ok h
  obtain ⟨st', ho, hst, _⟩ := runSolver_ok hr
  obtain ⟨hl, -, -⟩ := (checkVariable_iff (md := md) (pd := pd) (t0 := t0) (dt := dt) (horizon := cfg.horizon) v).2.2.1 hck
  have hN : cfg.horizon.toNat = v.us.length := by have := hl.2.1; omega
  rw [hN] at hc
  have h0 := solve_pos_start (o := o) (sc := sc) hp hv hck
  have key : st' = .succeeded ∨ st' = .iterationContinued ∨ (st' = .uninitialized ∧ cfg.maxIter ≤ 0) := by
    refine optLoop_rule (fun it st w => w.var.Pos v.us.length ∧
        (st = .iterationContinued ∨ (st = .uninitialized ∧ it = 1)))
      (fun st w => st = .succeeded ∨ st = .iterationContinued ∨ (st = .uninitialized ∧ cfg.maxIter ≤ 0))
      ⟨h0, .inr ⟨rfl, rfl⟩⟩ ?_ ?_ ho
    · intro it st w w' st' _ _ h1 hp
      have h2 := C30_iteration (S := stagesOf P t0 dt v.us.length) hL hdt hc h1.1 hp
      split
      · rename_i hh; exact ⟨(procOnce_pos h1.1 hp).1, .inl hh⟩
      · rcases h2 with h2 | h2
        · exact .inl h2
        · rename_i hh; exact absurd h2.1 hh
    · rintro st w ⟨_, h1 | h1⟩
      · exact .inr (.inl h1)
      · exact .inr (.inr ⟨h1.1, by have := h1.2; omega⟩)
  rcases key with k | k | k
  · left; rw [hst, k]; simp
  · right; left; rw [hst, if_pos k]
  · right; right; rw [hst, k.1]; exact ⟨by simp, k.2⟩

end Solve

/-! ## C43 -/

section LQ
variable {n : ℕ} {m p : ℕ → ℕ} {L : GainSolver ℝ} {N : ℕ} {cfg : Config ℝ} {S : Stages n m p ℝ} {x0 : Vec n ℝ}

/-- Data of a linear-quadratic problem. -/
structure LQData (n : ℕ) (m : ℕ → ℕ) where
  A : ℕ → Mat n n ℝ
  B : (i : ℕ) → Mat n (m i) ℝ
  a : ℕ → Vec n ℝ
  Q : ℕ → Mat n n ℝ
  M : (i : ℕ) → Mat n (m i) ℝ
  R : (i : ℕ) → Mat (m i) (m i) ℝ
  q : ℕ → Vec n ℝ
  r : (i : ℕ) → Vec (m i) ℝ
  Qf : Mat n n ℝ
  qf : Vec n ℝ

/-- The callbacks are those of the linear-quadratic problem with running cost
`½ xᵀQx + xᵀMu + ½ uᵀRu + qᵀx + rᵀu` and terminal cost `½ xᵀQf x + qfᵀx`, and there are no inequality constraints. -/
structure IsLQ (S : Stages n m p ℝ) (D : LQData n m) : Prop where
  none : ∀ i, p i = 0
  f : ∀ i x u, S.f i x u = D.A i *ᵥ x + D.B i *ᵥ u + D.a i
  df : ∀ i x u b, S.df i x u b = { Fx := D.A i, Fu := D.B i }
  dl : ∀ i x u b, S.dl i x u b =
    ⟨D.Q i *ᵥ x + D.M i *ᵥ u + D.q i, (D.M i)ᵀ *ᵥ x + D.R i *ᵥ u + D.r i, D.Q i, D.R i, D.M i⟩
  dφ : ∀ x b, S.dφ x b = { Vx := D.Qf *ᵥ x + D.qf, Vxx := D.Qf }

/-- Convexity of the data. -/
structure LQData.Convex (D : LQData n m) (N : ℕ) : Prop where
  Q : ∀ i < N, (D.Q i).IsSymm
  R : ∀ i < N, (D.R i).PosDef
  joint : ∀ i < N, ∀ (y : Vec n ℝ) (z : Vec (m i) ℝ), 0 ≤ y ⬝ᵥ (D.Q i *ᵥ y) + 2 * (y ⬝ᵥ (D.M i *ᵥ z)) + z ⬝ᵥ (D.R i *ᵥ z)
  Qf : D.Qf.PosSemidef

theorem IsLQ.convex {D : LQData n m} (h : IsLQ S D) (hD : D.Convex N) : ConvexCosts N S := by
  refine ⟨fun i hi x u b => ?_, fun i hi x u b => ?_, fun i hi x u b => ?_, fun x b => ?_⟩
  · rw [h.dl]; exact hD.Q i hi
  · rw [h.dl]; exact hD.R i hi
  · rw [h.dl]; exact hD.joint i hi
  · rw [h.dφ]; exact hD.Qf

theorem fin_elim {k : ℕ} (hk : k = 0) (j : Fin k) : False := by subst hk; exact j.elim0

theorem pos_of_none (hp : ∀ i, p i = 0) (v : Var n m p ℝ) : v.Pos N :=
  ⟨fun i _ j => (fin_elim (hp i) j).elim, fun i _ j => (fin_elim (hp i) j).elim⟩

theorem alphaMax_none (hp : ∀ i, p i = 0) (v dv : (i : ℕ) → Vec (p i) ℝ) : alphaMax N v dv = 1 := by
  unfold alphaMax
  induction N with
  | zero => rfl
  | succ N ih =>
    rw [forUp, ih]
    have : ∀ {k : ℕ} (f : ℝ → Fin k → ℝ), k = 0 → (List.finRange k).foldl f 1 = 1 := by
      intro k f hk; subst hk; rfl
    exact this _ (hp N)

/-- After a full Newton step of an LQ problem all KKT residuals vanish. -/
theorem lq_kkt_zero {D : LQData n m} (h : IsLQ S D) {co : (i : ℕ) → Coeff n (m i) (p i) ℝ} {term : TCoeff n ℝ}
    {v d : Var n m p ℝ} {eps : ℝ}
    (hd : NewtonSystem N S.dt eps x0 v (fun i => if i < N then calcCoeff S v i (co i) else co i) (calcTerm N S v term) d)
    {w : Solver n m p ℝ} (hw : w.var = applyStep v d 1 1) (e : ℝ) : kktOf N x0 (prepared N S w e) = 0 := by
  have hx : ∀ i, w.var.x i = v.x i + d.x i := by intro i; rw [hw]; simp [applyStep]
  have hu : ∀ i, w.var.u i = v.u i + d.u i := by intro i; rw [hw]; simp [applyStep]
  have hl : ∀ i, w.var.lam i = v.lam i + d.lam i := by intro i; rw [hw]; simp [applyStep]
  have z : ∀ {k : ℕ}, k = 0 → ∀ y : Vec k ℝ, y = 0 := by intro k hk y; funext j; exact (fin_elim hk j).elim
  unfold kktOf calcKktError
  have key : ∀ k ≤ N, forUp k (fun i e' => e' + sqNorm ((prepared N S w e).coeff i).xbar
      + sqNorm ((prepared N S w e).coeff i).gbar + sqNorm ((prepared N S w e).coeff i).Lxbar
      + sqNorm ((prepared N S w e).coeff i).Lubar
      + sqNorm (complError 0 ((prepared N S w e).var.s i) ((prepared N S w e).var.nu i)))
      (0 + sqNorm (x0 - (prepared N S w e).var.x 0)) = 0 := by
    intro k hk
    induction k with
    | zero =>
      rw [forUp]
      have : x0 - (prepared N S w e).var.x 0 = 0 := by
        show x0 - w.var.x 0 = 0
        rw [hx, hd.init]; module
      rw [this]; simp
    | succ k ih =>
      rw [forUp, ih (by omega)]
      have hc : (prepared N S w e).coeff k = calcCoeff S w.var k (w.coeff k) := if_pos (by omega)
      have hkN : k < N := by omega
      have e1 : (calcCoeff S w.var k (w.coeff k)).xbar = 0 := by
        have := hd.dyn k hkN
        simp only [if_pos hkN, calcCoeff, h.df, h.f] at this
        show S.f k (w.var.x k) (w.var.u k) - w.var.x (k + 1) = 0
        rw [h.f, hx, hx, hu, mulVec_add, mulVec_add]
        linear_combination (norm := module) this
      have e2 : (calcCoeff S w.var k (w.coeff k)).Lxbar = 0 := by
        have := hd.statx k hkN
        simp only [if_pos hkN, calcCoeff, h.df, h.dl] at this
        simp only [calcCoeff, h.df, h.dl]
        simp only [smulv_real, mulVec_real, hx, hu, hl, mulVec_add, z (h.none k) (w.var.nu k), z (h.none k) (v.nu k),
          z (h.none k) (d.nu k), mulVec_zero] at this ⊢
        linear_combination (norm := module) this
      have e3 : (calcCoeff S w.var k (w.coeff k)).Lubar = 0 := by
        have := hd.statu k hkN
        simp only [if_pos hkN, calcCoeff, h.df, h.dl] at this
        simp only [calcCoeff, h.df, h.dl]
        simp only [smulv_real, mulVec_real, hx, hu, hl, mulVec_add, z (h.none k) (w.var.nu k), z (h.none k) (v.nu k),
          z (h.none k) (d.nu k), mulVec_zero] at this ⊢
        linear_combination (norm := module) this
      rw [hc, e1, e2, e3, z (h.none k) (calcCoeff S w.var k (w.coeff k)).gbar, z (h.none k) (complError _ _ _)]
      simp
  rw [key N (le_refl _)]
  have e4 : (prepared N S w e).term.Lxbar = 0 := by
    have := hd.term
    simp only [calcTerm, h.dφ] at this
    show (calcTerm N S w.var w.term).Lxbar = 0
    simp only [calcTerm, h.dφ, hx, hl, mulVec_add]
    linear_combination (norm := module) this
  rw [e4]
  simp

/-- One iteration of an LQ problem: success, or a full Newton step. -/
theorem lq_first {D : LQData n m} (h : IsLQ S D) (hD : D.Convex N) (hL : ExactGain L) (hdt : 0 < S.dt)
    (hU : cfg.updateBarrierEps = false) (hls : cfg.enableLineSearch = false) (iter : ℕ) (w : Solver n m p ℝ) :
    ∃ w' st, procOnce L N cfg S x0 iter w = .ok (w', st) ∧ (st = .succeeded ∨ (st = .iterationContinued ∧
      ∀ e, kktOf N x0 (prepared N S w' e) = 0)) := by
  have hw : w.var.Pos N := pos_of_none h.none w.var
  have hout := procOnce_out (L := L) (N := N) (cfg := cfg) (S := S) (x0 := x0) iter w
  have hit : ∀ {w' st}, procOnce L N cfg S x0 iter w = .ok (w', st) → _ := fun {w' st} hq =>
    C30_iteration (w' := w') (st := st) hL hdt (h.convex hD) hw hq
  generalize hx : procOnce L N cfg S x0 iter w = x at hout hit
  cases hout with
  | ubEps hp =>
    unfold prepare at hp
    rw [hU] at hp
    cases hp
  | succeeded e he hk => exact ⟨_, _, rfl, .inl rfl⟩
  | backward e he hk hb => rcases hit rfl with h1 | h1 <;> simp at h1
  | forward e he hk w2 hb hf => rcases hit rfl with h1 | h1 <;> simp at h1
  | update e he hk w2 hb w3 hf r hr =>
    have g1 := (backwardPass_frame (L := L) (N := N) (cfg := cfg) (S := S) (traced N x0 iter (prepared N S w e)))
    rw [hb] at g1
    have g2 := (forwardPass_frame (N := N) (cfg := cfg) (x0 := x0) w2)
    rw [hf] at g2
    have hv3 : w3.var = w.var := g2.1.trans g1.1
    have hupd : r = .ok (true, { w3 with var := applyStep w3.var w3.delta 1 1 }) := by
      rw [← hr]
      unfold updateVariables
      dsimp only
      rw [alphaMax_none h.none, alphaMax_none h.none]
      unfold lineSearch
      rw [hls]
      simp [alphaOk, Res.map]
    subst hupd
    have hit' := hit rfl
    refine ⟨_, _, rfl, .inr ⟨rfl, fun e' => ?_⟩⟩
    rcases hit' with h1 | h1
    · cases h1
    · exact lq_kkt_zero h h1.2 (by dsimp only; rw [hv3]) e'

theorem lq_second {iter : ℕ} (hU : cfg.updateBarrierEps = false) (hth : 0 ≤ cfg.kktErrorThre) {w : Solver n m p ℝ}
    (hk : ∀ e, kktOf N x0 (prepared N S w e) = 0) :
    ∃ w', procOnce L N cfg S x0 iter w = .ok (w', .succeeded) ∧ w'.var = w.var := by
  have hout := procOnce_out (L := L) (N := N) (cfg := cfg) (S := S) (x0 := x0) iter w
  have hk' : ∀ e, leb (kktOf N x0 (prepared N S w e)) cfg.kktErrorThre = true := by
    intro e; rw [hk e, leb_real]; exact hth
  generalize hx : procOnce L N cfg S x0 iter w = x at hout
  cases hout with
  | ubEps hp =>
    unfold prepare at hp
    rw [hU] at hp
    cases hp
  | succeeded e he hk => exact ⟨_, rfl, rfl⟩
  | backward e he hk2 => rw [hk' e] at hk2; cases hk2
  | forward e he hk2 => rw [hk' e] at hk2; cases hk2
  | update e he hk2 => rw [hk' e] at hk2; cases hk2

end LQ

section LQSolve
variable {n : ℕ} {md pd : ℝ → ℕ} {L : GainSolver ℝ} {P : Callbacks n md pd} {dt : ℝ} {cfg : Config ℝ} {o : Obj n ℝ}
  {t0 : ℝ} {sc : Scratch n (fun i => md (timeAt t0 dt i)) (fun i => pd (timeAt t0 dt i)) ℝ} {x0 : Vec n ℝ}
  {init : VarL n ℝ}

/-- **C43.**  Convex linear-quadratic problem without inequality constraints, `update_barrier_eps = false` (with it the
call is undefined, `C34_no_inequality_ub`), no line search, at least two iterations allowed, valid initial variable: `solve`
returns `Succeeded` after at most two iterations, and if it needed the second one the KKT error of the result is zero. -/
theorem C43_lq {D : LQData n (fun i => md (timeAt t0 dt i))} (hP : IsLQ (stagesOf P t0 dt cfg.horizon.toNat) D)
    (hD : D.Convex cfg.horizon.toNat) (hL : ExactGain L) (hdt : 0 < dt) (hU : cfg.updateBarrierEps = false)
    (hls : cfg.enableLineSearch = false) (hI : cfg.initComplementary = false) (hth : 0 ≤ cfg.kktErrorThre)
    (hm : 2 ≤ cfg.maxIter) (hl : LengthsOk cfg.horizon init) (hd : DimsOk md pd t0 dt init) (hn : NonNeg init) :
    ∃ o', solve L P dt cfg o t0 sc x0 init = (o', .ok .succeeded) ∧
      (o'.trace.length = 1 ∨ (o'.trace.length = 2 ∧ ∃ v dF dG dL dV, o'.var = v.out cfg.horizon.toNat ∧
        DerivsAt P t0 dt cfg.horizon.toNat v dF dG dL dV ∧ KktWithin P t0 dt x0 cfg.horizon.toNat v dF dG dL dV 0)) := by
  have hN : cfg.horizon.toNat = init.us.length := by have := hl.2.1; omega
  rw [hN] at hP hD ⊢
  have hc : checkVariable md pd t0 dt cfg.horizon init = .ok () := (checkVariable_iff init).2.2.2 ⟨hl, hd, hn⟩
  set S := stagesOf P t0 dt init.us.length with hS
  set w0 := initSolver (m := fun i => md (timeAt t0 dt i)) (p := fun i => pd (timeAt t0 dt i)) init o.eps sc with hw0
  have hrun : ∀ w st, optLoop L init.us.length cfg S x0 cfg.maxIter.toNat 1 .uninitialized w0 = .ok (w, st) →
      w.trace ≠ [] → st = .succeeded →
      solve L P dt cfg o t0 sc x0 init = ({ var := w.var.out init.us.length, trace := w.trace, eps := w.eps }, .ok .succeeded) := by
    intro w st h1 h2 h3
    unfold solve runSolver
    simp only [hI, Bool.false_eq_true, if_false, hc, ← hS, ← hw0, h1, Res.bind_ok, h2, and_false, h3]
    rfl
  obtain ⟨w1, st1, h1, h2⟩ := lq_first (x0 := x0) (L := L) (cfg := cfg) hP hD hL hdt hU hls 1 w0
  obtain ⟨r, hr⟩ : ∃ r, cfg.maxIter.toNat = r + 2 := ⟨cfg.maxIter.toNat - 2, by omega⟩
  obtain ⟨e1, he1, _, ht1, _⟩ := procOnce_frame h1
  have ht1' : w1.trace.length = 1 := by rw [ht1]; rfl
  rcases h2 with h2 | ⟨h2, hk⟩
  · subst h2
    refine ⟨_, hrun w1 .succeeded ?_ ?_ rfl, .inl ht1'⟩
    · rw [hr]; unfold optLoop; rw [h1]; simp
    · intro h0; rw [h0] at ht1'; cases ht1'
  · subst h2
    obtain ⟨w2, h3, h4⟩ := lq_second (L := L) (cfg := cfg) (iter := 2) hU hth hk
    obtain ⟨e2, he2, _, ht2, _⟩ := procOnce_frame h3
    have ht2' : w2.trace.length = 2 := by rw [ht2, List.length_append, ht1']; rfl
    refine ⟨_, hrun w2 .succeeded ?_ ?_ rfl, .inr ⟨ht2', ?_⟩⟩
    · rw [hr]
      unfold optLoop
      rw [h1]
      simp only [Res.bind_ok, ne_eq, not_true_eq_false, if_false]
      unfold optLoop
      rw [h3]
      simp
    · intro h0; rw [h0] at ht2'; cases ht2'
    · have hk0 := (kktOf_prepared (P := P) (x0 := x0) (dt := dt) (t0 := t0) init.us.length w1 e2 0).1 (le_of_eq (hk e2))
      refine ⟨w1.var, _, _, _, _, by rw [h4], ⟨?_, ⟨_, rfl⟩⟩, hk0⟩
      intro i hi
      have hci : (prepared init.us.length (stagesOf P t0 dt init.us.length) w1 e2).coeff i =
        calcCoeff (stagesOf P t0 dt init.us.length) w1.var i (w1.coeff i) := if_pos hi
      rw [hci]
      exact ⟨⟨_, rfl⟩, ⟨_, rfl⟩, ⟨_, rfl⟩⟩

end LQSolve
end Nmpc.FMPC
