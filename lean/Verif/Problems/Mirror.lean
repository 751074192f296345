import Verif.DDP.Mirror
import Verif.DDP.Sim
import Verif.Problems.Model

/-!
# C125: the symmetric example problems
-/

namespace Nmpc.Problems

open DDP

theorem abs2_sub_neg {n : ℕ} (x y : Vec n ℝ) : abs2 (-x - y) = abs2 (x - -y) := by
  funext i; simp only [abs2, Pi.sub_apply, Pi.neg_apply]; ring

theorem ref_neg (refPos : ℝ → ℝ) (t : ℝ) : CartPole.ref (fun t => -refPos t) t = -CartPole.ref refPos t := by
  funext i; fin_cases i <;> simp [CartPole.ref]

/-- **C125** Reflecting the cart-pole problem reflects its reference position and changes nothing else. -/
theorem C125_cartpole (p : CartPole ℝ) (refPos : ℝ → ℝ) (dt : ℝ) :
    (p.ddp refPos dt).mirror = p.ddp (fun t => -refPos t) dt := by
  have hd : ∀ a, p.denom (-a) = p.denom a := by intro a; simp [CartPole.denom]
  unfold CartPole.ddp Callbacks.mirror
  congr 1
  · funext t x u i
    fin_cases i <;> simp [CartPole.stateEq, hd] <;> ring
  · funext t x u
    simp only [CartPole.runningCost, ref_neg]
    rw [abs2_sub_neg]
    congr 3
    funext i; simp [abs2]
  · funext t x
    simp only [CartPole.terminalCost, ref_neg]
    rw [abs2_sub_neg]
  · funext t x u b
    show (⟨p.stateEqX dt (-x) (-u), p.stateEqU dt (-x)⟩ : FDeriv 4 1 ℝ) = ⟨p.stateEqX dt x u, p.stateEqU dt x⟩
    congr 1
    · funext i j
      fin_cases i <;> fin_cases j <;> simp [CartPole.stateEqX, addDiag, scaleM, hd]
      · left; congr 1; ring
      · left; congr 1; ring
    · funext i j
      fin_cases i <;> fin_cases j <;> simp [CartPole.stateEqU, scaleM, hd]
  · funext t x u b
    simp only [CartPole.runningCostDeriv, LDeriv.mirror, ref_neg]
    congr 1
    · funext i; simp only [cwise, Pi.neg_apply, Pi.sub_apply]; ring
    · funext i; simp only [cwise, Pi.neg_apply]; ring
  · funext t x b
    simp only [CartPole.terminalCostDeriv, VDeriv.mirror, ref_neg]
    congr 1
    funext i; simp only [cwise, Pi.neg_apply, Pi.sub_apply]; ring

/-- **C125** Reflecting the bipedal problem reflects its reference of the zero moment point and changes nothing else. -/
theorem C125_bipedal (p : Bipedal ℝ) (dt : ℝ) :
    (p.ddp dt).mirror = ({ p with refZmp := fun t => -p.refZmp t } : Bipedal ℝ).ddp dt := by
  unfold Bipedal.ddp Callbacks.mirror
  congr 1
  · funext t x u
    show -(FOps.mulVec (p.A dt t) (-x) + FOps.mulVec (p.B dt t) (-u)) = _
    rw [oddLaws_real.mulVec, oddLaws_real.mulVec, oddLaws_real.vadd, oddLaws_real.vneg_neg]
    rfl
  · funext t x u
    simp only [Pi.neg_apply]; ring
  · funext t x
    simp only [Pi.neg_apply]; ring
  · funext t x u b
    simp only [LDeriv.mirror, Pi.neg_apply]
    congr 1
    · funext i; fin_cases i <;> simp
    · funext i; fin_cases i; simp; ring
  · funext t x b
    simp only [VDeriv.mirror, Pi.neg_apply]
    congr 1
    funext i; fin_cases i <;> simp; ring

end Nmpc.Problems

namespace Nmpc

section Sim
variable {n m : ℕ} {σ : Type}

/-- The reflected callback: forces and target positions are negated. -/
def Callback.mirror : Callback ℝ → Callback ℝ
  | .mpc => .mpc
  | .dist f => .dist (-f)
  | .target p => .target (-p)

/-- The reflected simulation, `g` reflecting the controller. -/
noncomputable def Sim.mirror (g : σ → σ) (s : Sim n m σ ℝ) : Sim n m σ ℝ :=
  { s with x := -s.x, distU := -s.distU, target := s.target.map fun p => -p, ctrl := g s.ctrl,
           log := s.log.map fun l => { l with x := -l.x, u := -l.u, d := -l.d } }

theorem simLoop_mirror {C C' : Controller n m σ ℝ} {plant : ℝ → Vec n ℝ → Vec m ℝ → Vec n ℝ} {simDt endT : ℝ}
    {env : ℕ → List (Callback ℝ)} {x0 : Vec n ℝ} {c0 : σ} (g : σ → σ)
    (hs : ∀ ref t x c, C'.solve (-ref) t (-x) (g c) = (C.solve ref t x c).map g)
    (hi : ∀ c x, C'.input (g c) (-x) = -C.input c x) (hp : ∀ t x u, plant t (-x) (-u) = -plant t x u) :
    simLoop C' plant simDt endT (fun k => (env k).map Callback.mirror) (-x0) (g c0) =
      (simLoop C plant simDt endT env x0 c0).map (Sim.mirror g) := by
  have hr : ∀ t : Option ℝ, refPos (t.map fun p => -p) = -refPos t := by
    intro t; cases t <;> simp [refPos]
  have hspin : ∀ (cs : List (Callback ℝ)) (s : Sim n m σ ℝ),
      spinOnce C' (cs.map Callback.mirror) (s.mirror g) = (spinOnce C cs s).map (Sim.mirror g) := by
    intro cs
    induction cs with
    | nil => intro s; rfl
    | cons c cs ih =>
      intro s
      have hc : runCallback C' (s.mirror g) c.mirror = (runCallback C s c).map (Sim.mirror g) := by
        cases c with
        | mpc =>
          show (C'.solve (refPos (s.target.map fun p => -p)) s.t (-s.x) (g s.ctrl)).map _ =
            ((C.solve (refPos s.target) s.t s.x s.ctrl).map _).map _
          rw [hr, hs]
          cases C.solve (refPos s.target) s.t s.x s.ctrl <;> rfl
        | dist f =>
          rfl
        | target p => rfl
      simp only [List.map_cons, spinOnce]
      rw [hc]
      cases runCallback C s c with
      | ok s' => exact ih s'
      | _ => rfl
  have hone : ∀ s : Sim n m σ ℝ, simOne C' plant simDt (s.mirror g) = (simOne C plant simDt s).mirror g := by
    intro s
    have hd : (if ltb s.distT s.t = true then fun _ => 0 else -s.distU : Vec m ℝ) =
        -(if ltb s.distT s.t = true then fun _ => 0 else s.distU) := by
      split
      · funext i; simp
      · rfl
    unfold simOne
    show ({ s.mirror g with
        k := s.k + 1, t := s.t + simDt
        x := plant s.t (-s.x) (C'.input (g s.ctrl) (-s.x) + (if ltb s.distT s.t = true then fun _ => 0 else -s.distU))
        distU := (if ltb s.distT s.t = true then fun _ => 0 else -s.distU)
        log := (s.mirror g).log ++ [{ t := s.t, x := -s.x, u := C'.input (g s.ctrl) (-s.x)
                                      d := (if ltb s.distT s.t = true then fun _ => 0 else -s.distU) }] } : Sim n m σ ℝ) = _
    rw [hd, hi, ← neg_add, hp]
    simp [Sim.mirror]
  unfold simLoop loopR
  have hstep : ∀ s : Sim n m σ ℝ, simRound C' plant simDt endT (fun k => (env k).map Callback.mirror) (s.mirror g) =
      (simRound C plant simDt endT env s).map (Sim.mirror g) (Res.map (Sim.mirror g)) := by
    intro s
    unfold simRound
    rw [hone, show (s.mirror g).t = s.t from rfl, show (s.mirror g).k = s.k from rfl, hspin]
    split
    · cases spinOnce C (env s.k) (simOne C plant simDt s) <;> rfl
    · rfl
  have h := loopM_map (Sim.mirror g) (Res.map (Sim.mirror g)) hstep
    { k := 0, t := 0, x := x0, distT := 0, distU := fun _ => 0, target := none, ctrl := c0, log := [] }
  have hz : ({ k := 0, t := 0, x := -x0, distT := 0, distU := fun _ => 0, target := none, ctrl := g c0, log := [] } : Sim n m σ ℝ) =
      Sim.mirror g { k := 0, t := 0, x := x0, distT := 0, distU := fun _ => 0, target := none, ctrl := c0, log := [] } := by
    unfold Sim.mirror
    congr 1
    funext i; simp
  rw [hz, h]
  cases loopM (simRound C plant simDt endT env) _ with
  | none => rfl
  | some r => cases r <;> rfl

end Sim

end Nmpc

namespace Nmpc.DDP

variable {n : ℕ} {md : ℝ → ℕ} {P : Callbacks n md} {L : LLT ℝ} {cfg : Config ℝ}
  {lim : Option ((t : ℝ) → Vec (md t) ℝ × Vec (md t) ℝ)} {dt t0 : ℝ}

/-- The ways in which the tests shift the inputs commute with the reflection. -/
theorem C125_shiftRepeat (us : List (Σ k : ℕ, Vec k ℝ)) : shiftRepeat (mirrorUs us) = (shiftRepeat us).map mirrorUs := by
  cases us with
  | nil => rfl
  | cons a rest =>
    unfold shiftRepeat mirrorUs
    rw [List.map_cons]
    dsimp only
    rw [List.getLast?_map]
    cases rest.getLast? with
    | none => rfl
    | some u => simp [Res.map]

theorem C125_shiftDim (dim : ℕ) (us : List (Σ k : ℕ, Vec k ℝ)) : shiftDim dim (mirrorUs us) = (shiftDim dim us).map mirrorUs := by
  cases us with
  | nil => rfl
  | cons a rest =>
    unfold shiftDim mirrorUs
    rw [List.map_cons]
    dsimp only
    rw [List.getLast?_map]
    cases rest.getLast? with
    | none => rfl
    | some u =>
      have hz : (-(fun _ => 0) : Vec dim ℝ) = fun _ => 0 := by funext i; simp
      simp only [Option.map_some, Res.map, Res.bind_ok]
      by_cases h : u.1 = dim
      · simp [h]
      · simp [h, hz]

/-- **C125** At rest: a problem equal to its own reflection, with symmetric limits, solved from the origin with zero inputs returns the
origin and zero inputs only. -/
theorem C125_rest {o : Obj n ℝ} {N : ℕ} {scratch : Scratch n (fun i => md (timeAt t0 dt i)) ℝ}
    (hL : ∀ {k : ℕ} (M : Mat k k ℝ) (b : Vec k ℝ), L.solve M (-b) = -L.solve M b)
    (hP : P.mirror = P) (hl : mirrorLim lim = lim)
    (hlim : ∀ g, lim = some g → ∀ t j, (g t).1 j ≤ (g t).2 j) (ho : o.mirror = o) (hs : scratch.mirror = scratch) :
    let r := solve L P lim dt cfg o t0 scratch 0 (zeroInputs md t0 dt N)
    (∀ x ∈ r.1.control.xs, x = 0) ∧ ∀ u ∈ r.1.control.us, u.2 = 0 := by
  intro r
  have hz : mirrorUs (zeroInputs md t0 dt N) = zeroInputs md t0 dt N := by
    unfold mirrorUs zeroInputs
    rw [List.map_map]
    congr 1
    funext i
    simp only [Function.comp]
    congr 1
    funext j; simp
  have h := C125_mirror (P := P) (cfg := cfg) (dt := dt) (t0 := t0) (o := o) (x0 := 0) (us := zeroInputs md t0 dt N)
    (scratch := scratch) (lim := lim) oddLaws_real hL (fun g hg t j => by rw [ltb_real_false]; exact hlim g hg t j)
  rw [hP, hl, ho, hs, neg_zero, hz] at h
  have hr : r.1 = r.1.mirror := congrArg Prod.fst h
  have hx : r.1.control.xs = r.1.control.xs.map fun x => -x := congrArg (fun o : Obj n ℝ => o.control.xs) hr
  have hu : r.1.control.us = mirrorUs r.1.control.us := congrArg (fun o : Obj n ℝ => o.control.us) hr
  constructor
  · intro x hxm
    obtain ⟨i, hi, rfl⟩ := List.getElem_of_mem hxm
    have e : r.1.control.xs[i]? = (r.1.control.xs.map fun x => -x)[i]? := by rw [← hx]
    rw [List.getElem?_map, List.getElem?_eq_getElem hi, Option.map_some, Option.some.injEq] at e
    exact self_eq_neg.mp e
  · intro u hum
    obtain ⟨i, hi, rfl⟩ := List.getElem_of_mem hum
    have e : r.1.control.us[i]? = (mirrorUs r.1.control.us)[i]? := by rw [← hu]
    unfold mirrorUs at e
    rw [List.getElem?_map, List.getElem?_eq_getElem hi, Option.map_some, Option.some.injEq] at e
    generalize r.1.control.us[i] = u at e
    obtain ⟨k, v⟩ := u
    simp only [Sigma.mk.injEq, heq_eq_eq, true_and] at e
    exact self_eq_neg.mp e

/-- The reflected members of the controller. -/
def SimCtrl.mirror {n m : ℕ} (c : SimCtrl n m ℝ) : SimCtrl n m ℝ :=
  { c with u := -c.u, us := mirrorUs c.us, obj := c.obj.mirror }

/-- **C125** Reflection of the interactive simulation of the DDP example: negating the initial state, every disturbance force and every
target position negates every state, input and disturbance of the simulation, for every sequence of callbacks. -/
theorem C125_simulation {n m : ℕ} {P : ℝ → Callbacks n (fun _ : ℝ => m)} {bd : ℝ → Vec m ℝ} {scr : ℕ → Scratch n (fun _ => m) ℝ}
    {plant : ℝ → Vec n ℝ → Vec m ℝ → Vec n ℝ} {simDt endT : ℝ} {env : ℕ → List (Callback ℝ)} {x0 : Vec n ℝ} {c0 : SimCtrl n m ℝ}
    (hL : ∀ {k : ℕ} (M : Mat k k ℝ) (b : Vec k ℝ), L.solve M (-b) = -L.solve M b)
    (hP : ∀ ref, (P ref).mirror = P (-ref)) (hp : ∀ t x u, plant t (-x) (-u) = -plant t x u) (hb : ∀ t j, 0 ≤ bd t j) :
    simLoop (ctrlOf L P (fun t => (-bd t, bd t)) dt cfg fun k => (scr k).mirror) plant simDt endT
        (fun k => (env k).map Callback.mirror) (-x0) c0.mirror =
      (simLoop (ctrlOf L P (fun t => (-bd t, bd t)) dt cfg scr) plant simDt endT env x0 c0).map (Sim.mirror SimCtrl.mirror) := by
  refine simLoop_mirror SimCtrl.mirror (fun ref t x c => ?_) (fun c x => rfl) hp
  have hl : mirrorLim (md := fun _ => m) (some fun t => (-bd t, bd t)) = some fun t => (-bd t, bd t) := by
    simp [mirrorLim]
  have h := C125_mirror (P := P ref) (cfg := cfg) (dt := dt) (t0 := t) (o := c.obj) (x0 := x) (us := c.us)
    (scratch := scr c.calls) (lim := some fun t => (-bd t, bd t)) oddLaws_real hL
    (fun g hg s j => by
      cases hg
      rw [ltb_real_false]
      show -bd s j ≤ bd s j
      linarith [hb s j])
  rw [hP, hl] at h
  unfold ctrlOf timerCallback
  dsimp only
  rw [show c.mirror.obj = c.obj.mirror from rfl, show c.mirror.calls = c.calls from rfl, show c.mirror.us = mirrorUs c.us from rfl, h]
  generalize solve L (P ref) (some fun t => (-bd t, bd t)) dt cfg c.obj t (scr c.calls) x c.us = r
  obtain ⟨o1, e⟩ := r
  cases e with
  | ok v =>
    simp only [Res.bind_ok]
    rw [show o1.mirror.control.us[0]? = (o1.control.us[0]?).map fun p => ⟨p.1, -p.2⟩ from List.getElem?_map ..]
    cases o1.control.us[(0 : ℕ)]? with
    | none => rfl
    | some q =>
      obtain ⟨k, u⟩ := q
      dsimp only [Option.map_some]
      by_cases hk : k = m
      · subst hk
        rw [dif_pos rfl, dif_pos rfl]
        simp only [Res.map, Res.bind_ok, SimCtrl.mirror]
        congr 2
        funext j
        have hbj := hb t j
        have hc := oddLaws_real.clamp_comm (x := u j) (l := -bd t j) (u := bd t j) (by rw [ltb_real_false]; linarith)
        simp only [Pi.neg_apply]
        rw [← hc, oddLaws_real.fmax_neg]
        conv_lhs => rw [← neg_neg (bd t j)]
        rw [oddLaws_real.fmin_neg, neg_neg]
      · rw [dif_neg hk, dif_neg hk]
        rfl
  | _ => rfl

end Nmpc.DDP

namespace Nmpc.Problems

open DDP

theorem exactLLT_odd {k : ℕ} (M : Mat k k ℝ) (b : Vec k ℝ) : exactLLT.solve M (-b) = -exactLLT.solve M b := by
  simp [exactLLT, Matrix.mulVec_neg]

theorem stateEq_odd (p : CartPole ℝ) (dt : ℝ) (x : Vec 4 ℝ) (u : Vec 1 ℝ) : p.stateEq dt (-x) (-u) = -p.stateEq dt x u := by
  have h := congrArg (fun P : Callbacks 4 (fun _ : ℝ => 1) => P.stateEq 0 x u) (C125_cartpole p 0 dt)
  have h' : -p.stateEq dt (-x) (-u) = p.stateEq dt x u := h
  rw [← h', neg_neg]

/-- **C125** The cart-pole simulation of the DDP example, with the limits and rates of C69: reflecting the initial state, the
disturbances and the targets reflects the whole simulation. -/
theorem C125_cartpole_simulation {L : LLT ℝ} {as : List ℝ} (p : CartPole ℝ) (o : Obj 4 ℝ) (x0 : Vec 4 ℝ)
    (scr : ℕ → Scratch 4 (fun _ => 1) ℝ) (env : ℕ → List (Callback ℝ))
    (hL : ∀ {k : ℕ} (M : Mat k k ℝ) (b : Vec k ℝ), L.solve M (-b) = -L.solve M b) :
    simLoop (ctrlOf L (fun ref => p.ddp (fun _ => ref) (1 / 100)) (fun _ => (fun _ => -15, fun _ => 15)) (1 / 100)
        { defaultConfig as 3 200 with withConstraint := true } fun k => (scr k).mirror) (fun _ x u => p.stateEq (2 / 1000) x u)
        (2 / 1000) 10 (fun k => (env k).map Callback.mirror) (-x0) (simCtrlInit 1 200 o.mirror) =
      (simLoop (ctrlOf L (fun ref => p.ddp (fun _ => ref) (1 / 100)) (fun _ => (fun _ => -15, fun _ => 15)) (1 / 100)
        { defaultConfig as 3 200 with withConstraint := true } scr) (fun _ x u => p.stateEq (2 / 1000) x u) (2 / 1000) 10 env x0
        (simCtrlInit 1 200 o)).map (Sim.mirror SimCtrl.mirror) := by
  have h := C125_simulation (L := L) (P := fun ref => p.ddp (fun _ => ref) (1 / 100)) (bd := fun _ _ => 15)
    (dt := 1 / 100) (cfg := { defaultConfig as 3 200 with withConstraint := true }) (scr := scr)
    (plant := fun _ x u => p.stateEq (2 / 1000) x u) (simDt := 2 / 1000) (endT := 10) (env := env) (x0 := x0)
    (c0 := simCtrlInit 1 200 o) hL (fun ref => C125_cartpole p _ _) (fun _ x u => stateEq_odd p _ x u) (fun _ _ => by norm_num)
  have hz : (-(fun _ => 0) : Vec 1 ℝ) = fun _ => 0 := by funext i; simp
  have hc : (simCtrlInit 1 200 o).mirror = (simCtrlInit 1 200 o.mirror : SimCtrl 4 1 ℝ) := by
    unfold simCtrlInit SimCtrl.mirror mirrorUs
    simp only [List.map_replicate, hz]
  rw [hc] at h
  exact h

/-- **C125** The pole standing upright over its target without a disturbance: the plan of the cart-pole example is to do nothing. -/
theorem C125_cartpole_rest {L : LLT ℝ} {cfg : Config ℝ} {o : Obj 4 ℝ} {N : ℕ} {dt t0 : ℝ} (p : CartPole ℝ) (fMax : ℝ) (hf : 0 ≤ fMax)
    {scratch : Scratch 4 (fun _ => 1) ℝ} (hL : ∀ {k : ℕ} (M : Mat k k ℝ) (b : Vec k ℝ), L.solve M (-b) = -L.solve M b)
    (ho : o.mirror = o) (hs : scratch.mirror = scratch) :
    let r := solve L (p.ddp 0 dt) (some fun _ => (fun _ => -fMax, fun _ => fMax)) dt cfg o t0 scratch 0 (zeroInputs (fun _ => 1) t0 dt N)
    (∀ x ∈ r.1.control.xs, x = 0) ∧ ∀ u ∈ r.1.control.us, u.2 = 0 := by
  refine C125_rest (P := p.ddp 0 dt) (lim := some fun _ => (fun _ => -fMax, fun _ => fMax)) hL ?_ ?_ ?_ ho hs
  · rw [C125_cartpole]
    congr 1
    funext t
    simp
  · unfold mirrorLim
    simp only [Option.map_some, Option.some.injEq]
    funext t
    congr 1
    funext i
    simp
  · intro g hg t j
    cases hg
    show -fMax ≤ fMax
    linarith

/-! ### The hypotheses can be met -/

/-- Object and buffers equal to their reflections. -/
example : (⟨⟨[], [], []⟩, []⟩ : Obj 4 ℝ).mirror = ⟨⟨[], [], []⟩, []⟩ ∧
    (⟨⟨fun _ _ => 0, fun _ _ _ => 1⟩, ⟨fun _ => ⟨1, fun _ _ => 1⟩, fun _ => ⟨0, 0, 1, 1, fun _ _ => 0⟩, ⟨0, 1⟩⟩, 3, 4⟩ :
      Scratch 4 (fun _ => 1) ℝ).mirror =
      ⟨⟨fun _ _ => 0, fun _ _ _ => 1⟩, ⟨fun _ => ⟨1, fun _ _ => 1⟩, fun _ => ⟨0, 0, 1, 1, fun _ _ => 0⟩, ⟨0, 1⟩⟩, 3, 4⟩ := by
  constructor
  · rfl
  · unfold Scratch.mirror Gains.mirror Derivs.mirror LDeriv.mirror VDeriv.mirror
    simp only [neg_zero, Scratch.mk.injEq, and_true]
    congr 1
    funext i j
    simp

/-- The bipedal test started to the left of the reference is the mirror image of the one started to its right: the receding-horizon loop of
TestDDPBipedal.cpp with an LLT that solves exactly and limits from -1 to 2, respectively -2 to 1. -/
example (p : Bipedal ℝ) (cfgs : ℕ → Config ℝ) (scr : ℕ → (t : ℝ) → Scratch 2 (fun _ => 1) ℝ) (us : List (Σ k : ℕ, Vec k ℝ)) :
    mpcLoop exactLLT (({ p with refZmp := fun t => -p.refZmp t } : Bipedal ℝ).ddp (1 / 100)) (some fun _ => (fun _ => -2, fun _ => 1))
        (1 / 100) cfgs (fun k t => (scr k t).mirror) (fun _ => shiftRepeat) 10 ⟨⟨[], [], []⟩, []⟩ 0 ![-1, 0] (mirrorUs us) =
      (mpcLoop exactLLT (p.ddp (1 / 100)) (some fun _ => (fun _ => -1, fun _ => 2)) (1 / 100) cfgs scr (fun _ => shiftRepeat) 10
        ⟨⟨[], [], []⟩, []⟩ 0 ![1, 0] us).map Mpc.mirror := by
  have h := C125_loop_mirror (L := exactLLT) (P := p.ddp (1 / 100)) (lim := some fun _ => (fun _ => -1, fun _ => 2)) (dt := 1 / 100)
    (cfgs := cfgs) (scr := scr) (shift := fun _ => shiftRepeat) (endT := 10) (o := ⟨⟨[], [], []⟩, []⟩) (t0 := 0) (x0 := ![1, 0])
    (us := us) oddLaws_real exactLLT_odd
    (fun g hg t j => by cases hg; rw [ltb_real_false]; norm_num) (fun _ us => C125_shiftRepeat us)
  rw [C125_bipedal] at h
  have hx : (-![1, 0] : Vec 2 ℝ) = ![-1, 0] := by funext i; fin_cases i <;> simp
  have hl : mirrorLim (md := fun _ => 1) (some fun _ => ((fun _ => -1, fun _ => 2) : Vec 1 ℝ × Vec 1 ℝ)) =
      some fun _ => (fun _ => -2, fun _ => 1) := by
    unfold mirrorLim
    simp only [Option.map_some, Option.some.injEq]
    funext t
    refine Prod.ext ?_ ?_
    · funext i; simp
    · funext i; simp
  rw [hx, hl] at h
  exact h

end Nmpc.Problems
