import Verif.Base.Sim
import Verif.FMPC.Mpc
import Verif.FMPC.LQ
import Verif.FMPC.Witness

/-!
# The cart-pole simulation of the FMPC example (C70, C71)
-/

set_option linter.unusedSectionVars false

namespace Nmpc.FMPC

open DDP (timeAt)
open Matrix (mulVec_add mulVec_sub)

section Model
variable {α : Type} [Add α] [Sub α] [Mul α] [Div α] [Neg α] [Zero α] [One α] [FOps α] {n m p : ℕ}

/-- `coeffList().front().K` after a call of `solve` that returned (FmpcSolver.h 377-380, FmpcSolver.hpp 154-257): the gain of the first
step, as left by the last iteration that ran the backward pass. -/
def firstGain {n : ℕ} {md pd : α → ℕ} (L : GainSolver α) (P : Callbacks n md pd) (dt : α) (cfg : Config α) (o : Obj n α)
    (t0 : α) (sc : Scratch n (fun i => md (timeAt t0 dt i)) (fun i => pd (timeAt t0 dt i)) α) (x0 : Vec n α)
    (init : VarL n α) : Res (Mat (md (timeAt t0 dt 0)) n α) :=
  (if cfg.initComplementary then initCompl P t0 dt cfg.horizon.toNat init else .ok init).bind fun v =>
    (runSolver L v.us.length cfg (stagesOf P t0 dt v.us.length) x0
      (initSolver v (if cfg.initComplementary then initialBarrierEps else o.eps) sc)).map fun q => (q.1.coeff 0).K

/-- `current_u_`, `first_iter_`, `variable_`, the solver with what the simulation reads of it, and the number of calls
(TestFmpcCartPole.cpp 578-592). -/
structure SimCtrl (n m : ℕ) (α : Type) where
  calls : ℕ
  first : Bool
  u : Vec m α
  K : Mat m n α
  planX : Vec n α
  var : VarL n α
  obj : Obj n α

/-- `mpcTimerCallback` (TestFmpcCartPole.cpp 404-418).  The status is not looked at.  `u_list[0]`, `x_list[0]` and
`coeffList().front()` are undefined for empty lists. -/
def timerCallback (L : GainSolver α) (P : α → Callbacks n (fun _ : α => m) (fun _ => p)) (dt : α) (cfg : Config α)
    (scr : ℕ → Scratch n (fun _ => m) (fun _ => p) α) (ref t : α) (x : Vec n α) (c : SimCtrl n m α) : Res (SimCtrl n m α) :=
  let r := solve L (P ref) dt cfg c.obj t (scr c.calls) x c.var
  r.2.bind fun _ =>
    (firstGain L (P ref) dt cfg c.obj t (scr c.calls) x c.var).bind fun K =>
    match r.1.var.us[(0 : ℕ)]?, r.1.var.xs[(0 : ℕ)]? with
    | some ⟨k, u⟩, some x0 =>
      if h : k = m then
        .ok { calls := c.calls + 1, first := false, u := h ▸ u, K := K, planX := x0, var := r.1.var, obj := r.1 }
      else .ub
    | _, _ => .ub

/-- The input applied by the simulation (TestFmpcCartPole.cpp 351-355), without the disturbance. -/
def appliedInput (c : SimCtrl n m α) (x : Vec n α) : Vec m α :=
  if c.first then c.u else c.u + FOps.mulVec c.K (c.planX - x)

/-- The controller of `TestFmpcCartPole`. -/
def ctrlOf (L : GainSolver α) (P : α → Callbacks n (fun _ : α => m) (fun _ => p)) (dt : α) (cfg : Config α)
    (scr : ℕ → Scratch n (fun _ => m) (fun _ => p) α) : Controller n m (SimCtrl n m α) α where
  solve := timerCallback L P dt cfg scr
  input := appliedInput

/-- Before the first callback (TestFmpcCartPole.cpp 327-329, 591); `K` and `x_list` are not read. -/
def simCtrlInit (m p N : ℕ) (K : Mat m n α) (x : Vec n α) (o : Obj n α) : SimCtrl n m α where
  calls := 0
  first := true
  u := fun _ => 0
  K := K
  planX := x
  var := resetVar n m p N 0 0 0 1 1
  obj := o

end Model

/-! ## C70 -/

section Safety
variable {n m p : ℕ} {L : GainSolver ℝ} {P : ℝ → Callbacks n (fun _ : ℝ => m) (fun _ => p)} {dt : ℝ} {cfg : Config ℝ}
  {scr : ℕ → Scratch n (fun _ => m) (fun _ => p) ℝ} {plant : ℝ → Vec n ℝ → Vec m ℝ → Vec n ℝ} {simDt endT : ℝ}
  {env : ℕ → List (Callback ℝ)} {x0 : Vec n ℝ} {o : Obj n ℝ}

theorem firstGain_ok {md pd : ℝ → ℕ} {P : Callbacks n md pd} {t0 : ℝ}
    {sc : Scratch n (fun i => md (timeAt t0 dt i)) (fun i => pd (timeAt t0 dt i)) ℝ} {init : VarL n ℝ} {o' : Obj n ℝ} {st : Status}
    (h : solve L P dt cfg o t0 sc x0 init = (o', .ok st)) : ∃ K, firstGain L P dt cfg o t0 sc x0 init = .ok K := by
  obtain ⟨v, w, hv, hck, hr, rfl⟩ := solve_ok h
  unfold firstGain
  unfold startVar at hv
  rw [hv, Res.bind_ok]
  exact ⟨(w.coeff 0).K, by erw [hr]; rfl⟩

/-- What is true of the controller between callbacks. -/
structure CtrlOk (m p : ℕ) (N : ℤ) (c : SimCtrl n m ℝ) : Prop where
  warm : WarmOk m p N c.var
  pos : c.var.Pos

theorem timerCallback_ok (hN : 0 < cfg.horizon) (hm : 0 < cfg.maxIter)
    (hne : NoEmpty cfg.horizon.toNat n (fun _ => p) cfg) (ref t : ℝ) (x : Vec n ℝ) (c : SimCtrl n m ℝ)
    (hc : CtrlOk m p cfg.horizon c) :
    ∃ c', timerCallback L P dt cfg scr ref t x c = .ok c' ∧ CtrlOk m p cfg.horizon c' := by
  have hnn : NonNeg c.var := ⟨fun e he j => by simpa using (hc.pos.1 e he j).le, fun e he j => by simpa using (hc.pos.2 e he j).le⟩
  obtain ⟨o', st, hq⟩ := C58_defined (L := L) (P := P ref) (dt := dt) (o := c.obj) (t0 := t) (sc := scr c.calls) (x0 := x)
    hc.warm.lengths (hc.warm.dims t dt).1 (.inr ⟨hc.warm.dims t dt, hnn⟩) hne (.inl hm)
  have hpos := (C28_positive (.inr hc.pos) hq).1
  have hsh := solve_shape hq
  have hw' := warmOk_of hsh.1 hsh.2
  obtain ⟨K, hK⟩ := firstGain_ok hq
  have hus : 0 < o'.var.us.length := by have := hsh.1.2.1; omega
  have hxs : 0 < o'.var.xs.length := by have := hsh.1.1; omega
  unfold timerCallback
  dsimp only
  rw [hq]
  erw [hK]
  simp only [Res.bind_ok]
  rw [List.getElem?_eq_getElem hus, List.getElem?_eq_getElem hxs]
  have h0 := hw'.us _ (List.getElem_mem hus)
  generalize o'.var.us[0] = q at h0
  obtain ⟨k, u⟩ := q
  dsimp only at h0 ⊢
  subst h0
  rw [dif_pos rfl]
  exact ⟨_, rfl, hw', hpos⟩

/-- **C70** The interactive simulation of the FMPC example, for every problem (reference) and every sequence of timer, disturbance and
target callbacks: it ends normally after `⌈end_t / sim_dt⌉` steps; no call of the solver throws, diverges or accesses a list out of
range; slacks and multipliers of the warm start stay positive; the states follow the plant; disturbances last at most half a
second. -/
theorem C70_simulation (hdt : 0 < simDt) (hN : 0 < cfg.horizon) (hm : 0 < cfg.maxIter)
    (hne : NoEmpty cfg.horizon.toNat n (fun _ => p) cfg) (K : Mat m n ℝ) (xp : Vec n ℝ) :
    ∃ s, simLoop (ctrlOf L P dt cfg scr) plant simDt endT env x0 (simCtrlInit m p cfg.horizon.toNat K xp o) = .ok s ∧
      s.k = ⌈endT / simDt⌉₊ ∧ Simulated plant simDt env (fun _ _ => True) x0 s ∧ s.ctrl.var.Pos := by
  have hw := warmOk_reset (n := n) (m := m) (p := p) cfg.horizon.toNat 0 0 0 1 1
  rw [show ((cfg.horizon.toNat : ℕ) : ℤ) = cfg.horizon by omega] at hw
  obtain ⟨s, h1, h3, h4, h5⟩ := simLoop_ok (C := ctrlOf L P dt cfg scr) (plant := plant) (endT := endT) (env := env)
    (x0 := x0) (c0 := simCtrlInit m p cfg.horizon.toNat K xp o) (I := CtrlOk m p cfg.horizon) (U := fun _ _ => True) hdt
    ⟨hw, pos_reset _ _ _ _ one_pos one_pos⟩ (fun ref t x c hc => timerCallback_ok hN hm hne ref t x c hc) (fun _ _ _ => trivial)
  exact ⟨s, h1, h3, h4, h5.pos⟩

end Safety

/-! ## C71 -/

section Policy
variable {n : ℕ} {m p : ℕ → ℕ} {L : GainSolver ℝ} {N : ℕ} {cfg : Config ℝ} {S : Stages n m p ℝ}

/-- An iteration without inequalities and line search is a full step. -/
theorem full_step (hp : ∀ i, p i = 0) (hls : cfg.enableLineSearch = false) {x0 : Vec n ℝ} {iter : ℕ}
    {w w' : Solver n m p ℝ} (h : procOnce L N cfg S x0 iter w = .ok (w', .iterationContinued)) :
    ∃ e, EpsOf N cfg w e ∧ ∃ w2, backwardPass L N cfg S (traced N x0 iter (prepared N S w e)) = (true, w2) ∧ w'.coeff = w2.coeff ∧
      w'.var = applyStep w.var (forwardDelta N e x0 w.var w2.coeff w2.term) 1 1 := by
  have hout := procOnce_out (L := L) (N := N) (cfg := cfg) (S := S) (x0 := x0) iter w
  rw [h] at hout
  generalize hz : (Res.ok (w', Status.iterationContinued) : Res (Solver n m p ℝ × Status)) = z at hout
  cases hout with
  | ubEps => cases hz
  | succeeded => cases hz
  | backward => cases hz
  | forward => cases hz
  | update e he hk w2 hb w3 hf r hr =>
    have g1 := (backwardPass_frame (L := L) (N := N) (cfg := cfg) (S := S) (traced N x0 iter (prepared N S w e)))
    rw [hb] at g1
    rw [forwardPass_true] at hf
    have hf' := (Prod.ext_iff.1 hf).2
    dsimp only at hf'
    have hupd : r = .ok (true, { w3 with var := applyStep w3.var w3.delta 1 1 }) := by
      rw [← hr]
      unfold updateVariables
      dsimp only
      rw [alphaMax_none hp, alphaMax_none hp]
      unfold lineSearch
      rw [hls]
      simp [alphaOk, Res.map]
    rw [hupd] at hz
    simp only [Res.map, Res.bind_ok, Res.ok.injEq, Prod.mk.injEq] at hz
    refine ⟨e, he, w2, hb, ?_, ?_⟩
    · rw [hz.1, ← hf']
    · rw [hz.1, ← hf']
      dsimp only
      rw [g1.1, g1.2.1]
      rfl

/-- **C71** (partial) What the gain means.  For a problem without inequalities (no line search), run the same iteration for two initial
states: the new plan starts at the given state, the gain of the first step is the same, and the first inputs differ by the gain times
the difference of the states.  So the input for a state `x'` near the planned `x_list[0]` is `u_list[0] + K (x' - x_list[0])`. -/
theorem C71_policy_partial (hp : ∀ i, p i = 0) (hls : cfg.enableLineSearch = false) {x x' : Vec n ℝ} {iter : ℕ}
    {w w1 w1' : Solver n m p ℝ} (h : procOnce L N cfg S x iter w = .ok (w1, .iterationContinued))
    (h' : procOnce L N cfg S x' iter w = .ok (w1', .iterationContinued)) :
    w1.var.x 0 = x ∧ (w1'.coeff 0).K = (w1.coeff 0).K ∧
      w1'.var.u 0 = w1.var.u 0 + (w1.coeff 0).K.mulVec (x' - w1.var.x 0) := by
  obtain ⟨e, he, w2, hb, hc, hv⟩ := full_step hp hls h
  obtain ⟨e', he', w2', hb', hc', hv'⟩ := full_step hp hls h'
  have hee : e' = e := by
    rcases he with ⟨a, b⟩ | ⟨a, b⟩ <;> rcases he' with ⟨a', b'⟩ | ⟨a', b'⟩
    · rw [b] at b'; exact (Res.ok.inj b').symm
    · rw [a] at a'; cases a'
    · rw [a] at a'; cases a'
    · rw [b, b']
  subst hee
  have hco : w2'.coeff = w2.coeff := by
    have e1 : ∀ w : Solver n m p ℝ, (backwardPass L N cfg S w).2.coeff =
        (bwLoop L cfg S.dt w.eps w.var N (smulv (-1) w.term.Lxbar) w.term.V.Vxx w.coeff).2 := by
      intro w
      unfold backwardPass
      dsimp only
      split
      · split <;> rfl
      · rfl
    have h1 := e1 (traced N x iter (prepared N S w e'))
    have h2 := e1 (traced N x' iter (prepared N S w e'))
    rw [hb] at h1
    rw [hb'] at h2
    exact h2.trans h1.symm
  have hx : w1.var.x 0 = x := by
    rw [hv]
    simp [applyStep, forwardDelta, deltaX]
  refine ⟨hx, by rw [hc, hc', hco], ?_⟩
  rw [hx, hv, hv', hc, hco]
  simp only [applyStep, forwardDelta, deltaX, smulv_real, mulVec_real, one_smul, mulVec_sub]
  abel

end Policy

/-! ### The input the simulation applies -/

/-- **C71** (negation, in general) After the first callback the input applied at a state is the one the gain prescribes only if the
feedback term vanishes. -/
theorem C71_opposite {n m : ℕ} {c : SimCtrl n m ℝ} (hc : c.first = false) (x : Vec n ℝ) :
    appliedInput c x = c.u + c.K.mulVec (x - c.planX) ↔ c.K.mulVec (x - c.planX) = 0 := by
  have h : appliedInput c x = c.u - c.K.mulVec (x - c.planX) := by
    unfold appliedInput
    rw [hc, ← neg_sub x c.planX]
    simp only [Bool.false_eq_true, if_false, mulVec_real, Matrix.mulVec_neg]
    abel
  rw [h]
  constructor
  · intro h
    have : c.K.mulVec (x - c.planX) + c.K.mulVec (x - c.planX) = 0 := by
      linear_combination (norm := module) -h
    funext j
    have := congrFun this j
    simp only [Pi.add_apply, Pi.zero_apply] at this ⊢
    linarith
  · intro h
    rw [h]
    simp

/-- `update_barrier_eps` off (there are no inequalities), one iteration. -/
def cfgSim : Config XQ := { defaultConfig 1 1 with updateBarrierEps := false }

/-- The controller after a callback at the state `x`. -/
def afterCallback (x : ℚ) : Res (SimCtrl 1 1 XQ) :=
  timerCallback (m := 1) (p := 0) diagGain (fun _ => simpleProblem 0) (.fin 1) cfgSim
    (fun _ => scratchWith 0 [] (.fin 0) (.fin 1)) (.fin 0) (.fin 0) (fun _ => .fin x)
    { calls := 0, first := true, u := fun _ => .fin 0, K := fun _ _ => .fin 0, planX := fun _ => .fin 0
      var := initOf 0 0 0 0 0 0 0 0, obj := freshObj }

/-- **C71** (negation) `x' = x + u`, costs `u²/2` and `x²/2`, one step.  After a callback at `x = 1` the planned input is -1/2 and the gain
-1/2.  At the state 2 the simulation applies 0; the controller's input for that state is -1 (which is also `u + K (x - x_list[0])`).
The feedback term of the simulation has the wrong sign: it reduces the input where it should be increased. -/
theorem C71_fails :
    (afterCallback 1).map (fun c => (c.u 0, c.K 0 0, c.planX 0, appliedInput c (fun _ => .fin 2) 0)) =
      .ok (.fin (-1 / 2), .fin (-1 / 2), .fin 1, .fin 0) ∧
    (afterCallback 2).map (fun c => (c.u 0, c.K 0 0)) = .ok (.fin (-1), .fin (-1 / 2)) := by
  decide +kernel

end Nmpc.FMPC
