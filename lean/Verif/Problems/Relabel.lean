import Verif.FMPC.Relabel
import Verif.FMPC.Examples
import Verif.Problems.Mirror

/-!
# C127: reflection of the FMPC cart-pole example
-/

namespace Nmpc.FMPC

open Matrix

namespace SP
variable {k : ℕ} (h : SP k)

/-- The identity. -/
def one (k : ℕ) : SP k := ⟨fun _ => 1, fun _ => one_mul 1, 1⟩

/-- The reflection `x ↦ -x`. -/
def neg (k : ℕ) : SP k := ⟨fun _ => -1, fun _ => by norm_num, 1⟩

@[simp] theorem neg_v (x : Vec k ℝ) : (neg k).v x = -x := by funext j; simp [neg, v]
@[simp] theorem neg_vi (x : Vec k ℝ) : (neg k).vi x = -x := by funext j; simp only [neg, vi, neg_mul, one_mul]; rfl
@[simp] theorem neg_m {l : ℕ} (A : Mat k l ℝ) : (neg k).m (neg l) A = A := by funext i j; simp [neg, m]
@[simp] theorem neg_mi {l : ℕ} (A : Mat k l ℝ) : (neg k).mi (neg l) A = A := by funext i j; simp only [neg, mi, neg_mul, one_mul, mul_neg, mul_one, neg_neg]; rfl

theorem one_m (A : Mat k k ℝ) : (one k).m (one k) A = A := by funext i j; simp [one, m]

theorem m_conj (A : Mat k k ℝ) : h.m h A = h.m (one k) 1 * A * (h.m (one k) 1)ᵀ := by
  rw [m_tr, transpose_one]
  conv_rhs => rw [← one_m A]
  rw [m_mul, m_mul, Matrix.one_mul, Matrix.mul_one]

theorem m_orth : h.m (one k) 1 * (h.m (one k) 1)ᵀ = 1 := by
  rw [m_tr, transpose_one, m_mul, Matrix.one_mul, m_one]

theorem m_inv (A : Mat k k ℝ) : (h.m h A)⁻¹ = h.m h A⁻¹ := by
  have h1 := h.m_orth
  have h2 : (h.m (one k) 1)ᵀ * h.m (one k) 1 = 1 := mul_eq_one_comm.1 h1
  rw [m_conj, m_conj h A⁻¹, Matrix.mul_inv_rev, Matrix.mul_inv_rev, inv_eq_left_inv h1, inv_eq_left_inv h2, Matrix.mul_assoc]

theorem m_posDef (A : Mat k k ℝ) : (h.m h A).PosDef ↔ A.PosDef := by
  have h1 : IsUnit (h.m (one k) 1) := IsUnit.of_mul_eq_one _ h.m_orth
  rw [m_conj]
  exact h1.posDef_star_right_conjugate_iff

end SP

/-- The exact solutions of the gain systems do not depend on the order and orientation of the inputs. -/
theorem realGain_equi {k : ℕ} (h : SP k) : realGain.Equi h where
  ok M := by simp only [realGain]; exact decide_eq_decide.2 (h.m_posDef M)
  ldlt M b := by simp only [realGain]; rw [h.m_inv, SP.m_mulVec]
  lu M b := by simp only [realGain]; rw [h.m_inv, SP.m_mulVec]
  ldlt_neg M b := by simp [realGain, mulVec_neg]
  lu_neg M b := by simp [realGain, mulVec_neg]

/-- For the reflection of the inputs, odd solutions are enough. -/
theorem equi_neg {L : GainSolver ℝ} {k : ℕ} (h1 : ∀ (M : Mat k k ℝ) (b : Vec k ℝ), L.ldlt M (-b) = -L.ldlt M b)
    (h2 : ∀ (M : Mat k k ℝ) (b : Vec k ℝ), L.lu M (-b) = -L.lu M b) : L.Equi (SP.neg k) where
  ok M := by rw [SP.neg_m]
  ldlt M b := by rw [SP.neg_m, SP.neg_v, SP.neg_v, h1]
  lu M b := by rw [SP.neg_m, SP.neg_v, SP.neg_v, h2]
  ldlt_neg := h1
  lu_neg := h2

/-- The constraints of the cart-pole example come in pairs `-a - c ≤ 0`, `a - c ≤ 0`. -/
def pairs : (k : ℕ) → Equiv.Perm (Fin k)
  | 4 => Equiv.swap 0 1 * Equiv.swap 2 3
  | _ => 1

/-- Reflection of states and inputs, with the constraints of a pair exchanged. -/
def Relabel.mirror (n : ℕ) : Relabel n where
  X := SP.neg n
  b := 0
  U := SP.neg
  G k := ⟨fun _ => 1, fun _ => one_mul 1, pairs k⟩
  hG _ _ := rfl

@[simp] theorem Relabel.mirror_into {n : ℕ} (x : Vec n ℝ) : (Relabel.mirror n).into x = -x := by
  show (SP.neg n).v x + 0 = _
  rw [add_zero, SP.neg_v]

@[simp] theorem Relabel.mirror_back {n : ℕ} (x : Vec n ℝ) : (Relabel.mirror n).back x = -x := by
  show (SP.neg n).vi (x - 0) = _
  rw [sub_zero, SP.neg_vi]

end Nmpc.FMPC

namespace Nmpc.Problems

open FMPC

/-- **C127** The reflected cart-pole problem is the cart-pole problem with the reference reflected. -/
theorem C127_cartpole (p : CartPole ℝ) (refPos : ℝ → ℝ) (dt : ℝ) :
    (Relabel.mirror 4).callbacks (p.fmpc refPos dt) = p.fmpc (fun t => -refPos t) dt := by
  have h := C125_cartpole p refPos dt
  have e1 := congrArg DDP.Callbacks.stateEq h
  have e2 := congrArg DDP.Callbacks.runningCost h
  have e3 := congrArg DDP.Callbacks.terminalCost h
  have e4 := congrArg DDP.Callbacks.stateEqDeriv h
  have e5 := congrArg DDP.Callbacks.runningCostDeriv h
  have e6 := congrArg DDP.Callbacks.terminalCostDeriv h
  have hU : ∀ u : Vec 1 ℝ, ((Relabel.mirror 4).U 1).vi u = -u := fun u => SP.neg_vi u
  have hF : ∀ d : DDP.FDeriv 4 1 ℝ, (Relabel.mirror 4).F d = d := by
    intro d
    show (⟨(SP.neg 4).m (SP.neg 4) d.Fx, (SP.neg 4).m (SP.neg 1) d.Fu⟩ : DDP.FDeriv 4 1 ℝ) = d
    simp only [SP.neg_m]
  have hL : ∀ d : DDP.LDeriv 4 1 ℝ, (Relabel.mirror 4).L d = d.mirror := by
    intro d
    show (⟨(SP.neg 4).v d.Lx, (SP.neg 1).v d.Lu, (SP.neg 4).m (SP.neg 4) d.Lxx, (SP.neg 1).m (SP.neg 1) d.Luu,
      (SP.neg 4).m (SP.neg 1) d.Lxu⟩ : DDP.LDeriv 4 1 ℝ) = _
    simp only [SP.neg_m, SP.neg_v]
    rfl
  have hV : ∀ d : DDP.VDeriv 4 ℝ, (Relabel.mirror 4).V d = d.mirror := by
    intro d
    show (⟨(SP.neg 4).v d.Vx, (SP.neg 4).m (SP.neg 4) d.Vxx⟩ : DDP.VDeriv 4 ℝ) = _
    simp only [SP.neg_m, SP.neg_v]
    rfl
  unfold Relabel.callbacks
  simp only [Relabel.mirror_into, Relabel.mirror_back, hU, hF, hL, hV]
  unfold CartPole.fmpc
  congr 1
  · funext t x u i
    fin_cases i <;> simp [Relabel.mirror, pairs, SP.v, CartPole.ineqConst, Equiv.swap_apply_def] <;> ring
  · funext t x u d
    unfold Relabel.D
    congr 1
    · funext i j
      fin_cases i <;> fin_cases j <;> simp [Relabel.mirror, pairs, SP.m, SP.neg, Equiv.swap_apply_def]
    · funext i j
      fin_cases i <;> fin_cases j <;> simp [Relabel.mirror, pairs, SP.m, SP.neg, Equiv.swap_apply_def]

/-- **C127** Reflection of the interactive simulation of the FMPC example: negating the initial state, every disturbance force and every
target position negates every state, input and disturbance of the simulation, for every sequence of callbacks. -/
theorem C127_cartpole_simulation {L : GainSolver ℝ} (p : CartPole ℝ) (o : Obj 4 ℝ) (x0 xp : Vec 4 ℝ) (K : Mat 1 4 ℝ)
    (scr : ℕ → Scratch 4 (fun _ => 1) (fun _ => 4) ℝ) (env : ℕ → List (Callback ℝ))
    (h1 : ∀ (M : Mat 1 1 ℝ) (b : Vec 1 ℝ), L.ldlt M (-b) = -L.ldlt M b)
    (h2 : ∀ (M : Mat 1 1 ℝ) (b : Vec 1 ℝ), L.lu M (-b) = -L.lu M b) :
    simLoop (ctrlOf L (fun ref => p.fmpc (fun _ => ref) (1 / 100)) (1 / 100) (defaultConfig 200 5)
        fun k => (Relabel.mirror 4).scratch (scr k)) (fun _ x u => p.stateEq (2 / 1000) x u) (2 / 1000) 10
        (fun k => (env k).map Callback.mirror) (-x0) (simCtrlInit 1 4 200 K (-xp) ((Relabel.mirror 4).obj o)) =
      (simLoop (ctrlOf L (fun ref => p.fmpc (fun _ => ref) (1 / 100)) (1 / 100) (defaultConfig 200 5) scr)
        (fun _ x u => p.stateEq (2 / 1000) x u) (2 / 1000) 10 env x0 (simCtrlInit 1 4 200 K xp o)).map
        (Sim.mirror (Relabel.mirror 4).ctrl) := by
  have hE : L.Equi ((Relabel.mirror 4).U 1) := equi_neg h1 h2
  have hz : (-(fun _ => 0) : Vec 1 ℝ) = fun _ => 0 := by funext i; simp
  have hz4 : (-(fun _ => 0) : Vec 4 ℝ) = fun _ => 0 := by funext i; simp
  have hr : (Relabel.mirror 4).varL (resetVar 4 1 4 200 0 0 0 1 1) = resetVar 4 1 4 200 0 0 0 1 1 := by
    unfold Relabel.varL resetVar Relabel.listOf
    simp only [List.map_replicate, Relabel.mirror_into, hz4]
    rw [show (Relabel.mirror 4).X.v (fun _ => 0) = fun _ => 0 from (SP.neg_v _).trans hz4,
      show ((Relabel.mirror 4).U 1).v (fun _ => 0) = fun _ => 0 from (SP.neg_v _).trans hz,
      show ((Relabel.mirror 4).G 4).v (fun _ => 1) = fun _ => 1 from funext fun j => by rw [Relabel.G_v]]
  have hc : (Relabel.mirror 4).ctrl (simCtrlInit 1 4 200 K xp o) = simCtrlInit 1 4 200 K (-xp) ((Relabel.mirror 4).obj o) := by
    unfold simCtrlInit Relabel.ctrl
    simp only [hr, Relabel.mirror_into]
    rw [show ((Relabel.mirror 4).U 1).v (fun _ => 0) = fun _ => 0 from (SP.neg_v _).trans hz,
      show ((Relabel.mirror 4).U 1).m (Relabel.mirror 4).X K = K from SP.neg_m K]
  rw [← hc]
  refine simLoop_mirror (Relabel.mirror 4).ctrl (fun ref t x c => ?_) (fun c x => ?_) (fun _ x u => stateEq_odd p _ x u)
  · have := (C127_controller (scr := scr) (dt := 1 / 100) (cfg := defaultConfig 200 5)
      (P := fun ref => p.fmpc (fun _ => ref) (1 / 100)) (Relabel.mirror 4) hE (ref := ref) (ref' := -ref)
      (C127_cartpole p (fun _ => ref) (1 / 100)) t x c).1
    rw [Relabel.mirror_into] at this
    exact this
  · have := (C127_controller (scr := scr) (dt := 1 / 100) (cfg := defaultConfig 200 5)
      (P := fun ref => p.fmpc (fun _ => ref) (1 / 100)) (Relabel.mirror 4) hE (ref := 0) (ref' := -0)
      (C127_cartpole p (fun _ => 0) (1 / 100)) 0 x c).2
    rw [Relabel.mirror_into] at this
    exact this.trans (SP.neg_v _)

/-- **C127** The pole standing upright over its target: started from variables that are their own reflection, every call of the cart-pole
example plans to stay, with equal slacks and equal multipliers of opposite limits. -/
theorem C127_cartpole_rest {L : GainSolver ℝ} {cfg : Config ℝ} {o : Obj 4 ℝ} {dt t0 : ℝ} (p : CartPole ℝ)
    {sc : Scratch 4 (fun _ => 1) (fun _ => 4) ℝ} {init : VarL 4 ℝ}
    (h1 : ∀ (M : Mat 1 1 ℝ) (b : Vec 1 ℝ), L.ldlt M (-b) = -L.ldlt M b)
    (h2 : ∀ (M : Mat 1 1 ℝ) (b : Vec 1 ℝ), L.lu M (-b) = -L.lu M b)
    (ho : (Relabel.mirror 4).obj o = o) (hs : (Relabel.mirror 4).scratch sc = sc) (hi : (Relabel.mirror 4).varL init = init) :
    let r := solve L (p.fmpc 0 dt) dt cfg o t0 sc 0 init
    (∀ x ∈ r.1.var.xs, x = 0) ∧ (∀ u ∈ r.1.var.us, u.2 = 0) ∧ (∀ l ∈ r.1.var.lams, l = 0) ∧
      ∀ e ∈ r.1.var.ss ++ r.1.var.nus, ∀ j, e.2 (pairs e.1 j) = e.2 j := by
  have h := C127_relabel (lin := L) (P := p.fmpc 0 dt) (dt := dt) (cfg := cfg) (o := o) (t0 := t0) (sc := sc) (x0 := 0) (init := init)
    (Relabel.mirror 4) (fun _ _ => equi_neg h1 h2)
  have hz : (fun t : ℝ => -(0 : ℝ → ℝ) t) = 0 := by funext t; simp
  rw [C127_cartpole, hz, ho, hs, hi, Relabel.mirror_into, neg_zero] at h
  intro r
  have hr : (Relabel.mirror 4).varL r.1.var = r.1.var := congrArg (fun q : Obj 4 ℝ × Res Status => q.1.var) h.symm
  have hfix : ∀ {β : Type} (f : β → β) (l : List β), l.map f = l → ∀ e ∈ l, f e = e := by
    intro β f l hl e he
    induction l with
    | nil => cases he
    | cons a l ih =>
      rw [List.map_cons, List.cons.injEq] at hl
      rcases List.mem_cons.1 he with rfl | he
      · exact hl.1
      · exact ih hl.2 he
  have hself : ∀ {k : ℕ} (v : Vec k ℝ), -v = v → v = 0 := fun v hv => self_eq_neg.1 hv.symm
  refine ⟨fun x hx => ?_, fun u hu => ?_, fun l hl => ?_, fun e he j => ?_⟩
  · have := hfix _ _ (congrArg VarL.xs hr) x hx
    exact hself x (by rwa [Relabel.mirror_into] at this)
  · have := hfix _ _ (congrArg VarL.us hr) u hu
    obtain ⟨k, v⟩ := u
    have hv : (SP.neg k).v v = v := by simpa [Relabel.mirror] using this
    exact hself v (by rwa [SP.neg_v] at hv)
  · have := hfix _ _ (congrArg VarL.lams hr) l hl
    have hv : (SP.neg 4).v l = l := this
    exact hself l (by rwa [SP.neg_v] at hv)
  · have : (⟨e.1, ((Relabel.mirror 4).G e.1).v e.2⟩ : Σ k : ℕ, Vec k ℝ) = e := by
      rcases List.mem_append.1 he with he | he
      · exact hfix _ _ (congrArg VarL.ss hr) e he
      · exact hfix _ _ (congrArg VarL.nus hr) e he
    obtain ⟨k, v⟩ := e
    have hv : ((Relabel.mirror 4).G k).v v = v := by simpa using this
    have := congrFun hv j
    rw [Relabel.G_v] at this
    exact this

/-- Meeting the hypotheses: the exact gain solver and the initial variables of the example. -/
example (p : CartPole ℝ) : let sc : Scratch 4 (fun _ => 1) (fun _ => 4) ℝ :=
      { delta := ⟨fun _ => 0, fun _ => 0, fun _ => 0, fun _ => 0, fun _ => 0⟩
        coeff := fun _ => ⟨⟨0, 0⟩, ⟨0, 0⟩, ⟨0, 0, 0, 0, 0⟩, 0, 0, 0, 0, 0, 0, 0, 0⟩
        term := ⟨⟨0, 0⟩, 0, 0, 0, []⟩, merit := ⟨0, 0, 0⟩ }
    let o : Obj 4 ℝ := ⟨⟨[], [], [], [], []⟩, [], 0⟩
    ∀ u ∈ (solve realGain (p.fmpc 0 (1 / 100)) (1 / 100) (defaultConfig 200 5) o 0 sc 0 (resetVar 4 1 4 200 0 0 0 1 1)).1.var.us, u.2 = 0 := by
  intro sc o
  have hz : (-(fun _ => 0) : Vec 1 ℝ) = fun _ => 0 := by funext i; simp
  have hz4 : (-(fun _ => 0) : Vec 4 ℝ) = fun _ => 0 := by funext i; simp
  have hv : ∀ {k : ℕ} (h : SP k), h.v 0 = 0 := fun h => by funext j; simp [SP.v]
  have hm : ∀ {k l : ℕ} (h : SP k) (e : SP l), h.m e 0 = 0 := fun h e => by funext i j; simp [SP.m]
  refine (C127_cartpole_rest p (realGain_equi (SP.neg 1)).ldlt_neg (realGain_equi (SP.neg 1)).lu_neg rfl ?_ ?_).2.1
  · simp only [sc, Relabel.scratch, Relabel.dir, Relabel.coeff, Relabel.term, Relabel.F, Relabel.D, Relabel.L, Relabel.V, hv, hm]
  · unfold Relabel.varL resetVar Relabel.listOf
    simp only [List.map_replicate, Relabel.mirror_into, hz4]
    rw [show (Relabel.mirror 4).X.v (fun _ => 0) = fun _ => 0 from (SP.neg_v _).trans hz4,
      show ((Relabel.mirror 4).U 1).v (fun _ => 0) = fun _ => 0 from (SP.neg_v _).trans hz,
      show ((Relabel.mirror 4).G 4).v (fun _ => 1) = fun _ => 1 from funext fun j => by rw [Relabel.G_v]]

end Nmpc.Problems
