import Verif.Base.Sim
import Verif.DDP.Defined

/-!
# The cart-pole simulation of the DDP example (C69)
-/

set_option linter.unusedSectionVars false

namespace Nmpc.DDP

section Model
variable {α : Type} [Add α] [Sub α] [Mul α] [Div α] [Neg α] [Zero α] [One α] [FOps α] {n m : ℕ}

/-- `current_u_`, `initial_u_list_`, `ddp_solver_` and the number of calls (TestDDPCartPole.cpp 571-579). -/
structure SimCtrl (n m : ℕ) (α : Type) where
  calls : ℕ
  u : Vec m α
  us : List (Σ k : ℕ, Vec k α)
  obj : Obj n α

/-- `mpcTimerCallback` (TestDDPCartPole.cpp 388-404): the warm start is the last plan, not shifted; the input applied is clamped to
the limits.  `ref` is the value of `ref_pos_func_` (constant between callbacks); the buffers of the solver may hold anything.
`u_list[0]` is undefined for an empty list. -/
def timerCallback (L : LLT α) (P : α → Callbacks n (fun _ : α => m)) (lim : α → Vec m α × Vec m α) (dt : α) (cfg : Config α)
    (scr : ℕ → Scratch n (fun _ => m) α) (ref t : α) (x : Vec n α) (c : SimCtrl n m α) : Res (SimCtrl n m α) :=
  let r := solve L (P ref) (some lim) dt cfg c.obj t (scr c.calls) x c.us
  r.2.bind fun _ =>
    match r.1.control.us[(0 : ℕ)]? with
    | none => .ub
    | some ⟨k, u⟩ =>
      if h : k = m then
        .ok { calls := c.calls + 1, u := fun j => fmin (fmax ((h ▸ u : Vec m α) j) ((lim t).1 j)) ((lim t).2 j)
              us := r.1.control.us, obj := r.1 }
      else .ub

/-- The controller of `TestDDPCartPole`: `current_u_` is held between callbacks (TestDDPCartPole.cpp 330). -/
def ctrlOf (L : LLT α) (P : α → Callbacks n (fun _ : α => m)) (lim : α → Vec m α × Vec m α) (dt : α) (cfg : Config α)
    (scr : ℕ → Scratch n (fun _ => m) α) : Controller n m (SimCtrl n m α) α where
  solve := timerCallback L P lim dt cfg scr
  input c _ := c.u

/-- `current_u_ << 0`, `initial_u_list_.assign(horizon_steps, Zero())` (TestDDPCartPole.cpp 308-309). -/
def simCtrlInit (m N : ℕ) (o : Obj n α) : SimCtrl n m α where
  calls := 0
  u := fun _ => 0
  us := List.replicate N ⟨m, fun _ => 0⟩
  obj := o

end Model

variable {n m : ℕ} {L : LLT ℝ} {P : ℝ → Callbacks n (fun _ : ℝ => m)} {lo hi : Vec m ℝ} {dt : ℝ} {cfg : Config ℝ}
  {scr : ℕ → Scratch n (fun _ => m) ℝ} {plant : ℝ → Vec n ℝ → Vec m ℝ → Vec n ℝ} {simDt endT : ℝ} {env : ℕ → List (Callback ℝ)}
  {x0 : Vec n ℝ} {o : Obj n ℝ}

/-- What is true of the controller between callbacks. -/
structure CtrlOk (lo hi : Vec m ℝ) (N : ℤ) (c : SimCtrl n m ℝ) : Prop where
  bounds : ∀ j, lo j ≤ c.u j ∧ c.u j ≤ hi j
  len : (c.us.length : ℤ) = N
  dims : ∀ q ∈ c.us, q.1 = m

theorem timerCallback_ok (hN : 0 < cfg.horizon) (hf : 1 < cfg.lambdaFactor) (hm : 0 < cfg.lambdaMin) (h2 : cfg.useSecond = false)
    (hb : ∀ j, lo j ≤ hi j) (ref t : ℝ) (x : Vec n ℝ) (c : SimCtrl n m ℝ) (hc : CtrlOk lo hi cfg.horizon c) :
    ∃ c', timerCallback L P (fun _ => (lo, hi)) dt cfg scr ref t x c = .ok c' ∧ CtrlOk lo hi cfg.horizon c' := by
  have hd : DimsOk (fun _ => m) t dt c.us := fun i hi => hc.dims _ (List.getElem_mem hi)
  obtain ⟨b, hb'⟩ := C66_defined (L := L) (P := P ref) (lim := some fun _ => (lo, hi)) (dt := dt) (o := c.obj) (t0 := t)
    (scratch := scr c.calls) (x0 := x) hc.len hd hf hm h2 (fun _ => rfl)
  have htr := C11_trajectory (L := L) (P := P ref) (lim := some fun _ => (lo, hi)) (dt := dt) (o := c.obj) (t0 := t)
    (scratch := scr c.calls) (x0 := x) hc.len hd
  unfold timerCallback
  generalize solve L (P ref) (some fun _ => (lo, hi)) dt cfg c.obj t (scr c.calls) x c.us = r at htr hb'
  obtain ⟨o', r⟩ := r
  dsimp only at htr hb' ⊢
  rw [hb', Res.bind_ok]
  have hlen : (o'.control.us.length : ℤ) = cfg.horizon := by rw [htr.lenU]; exact hc.len
  have hdim : ∀ q ∈ o'.control.us, q.1 = m := by
    intro q hq
    obtain ⟨i, hi, rfl⟩ := List.getElem_of_mem hq
    obtain ⟨_, u, _, hu, _⟩ := htr.step i (by rw [← htr.lenU]; exact hi)
    rw [List.getElem?_eq_getElem hi] at hu
    rw [Option.some.inj hu]
  have hpos : 0 < o'.control.us.length := by omega
  rw [List.getElem?_eq_getElem hpos]
  have h0 := hdim _ (List.getElem_mem hpos)
  generalize o'.control.us[0] = q at h0
  obtain ⟨k, u⟩ := q
  dsimp only at h0 ⊢
  subst h0
  rw [dif_pos rfl]
  refine ⟨_, rfl, fun j => ?_, hlen, hdim⟩
  simp only [fmin_real, fmax_real]
  exact ⟨le_min (le_max_right _ _) (hb j), min_le_right _ _⟩

/-- **C69** The interactive simulation of the DDP example, for every problem (reference) and every sequence of timer, disturbance and
target callbacks: it ends normally after `⌈end_t / sim_dt⌉` steps, no call of the solver throws, diverges or accesses a list out of
range; the states follow the plant; the control input is always within the limits; and disturbances last at most half a second. -/
theorem C69_simulation (hdt : 0 < simDt) (hN : 0 < cfg.horizon) (hf : 1 < cfg.lambdaFactor) (hm : 0 < cfg.lambdaMin)
    (h2 : cfg.useSecond = false) (hb : ∀ j, lo j ≤ 0 ∧ 0 ≤ hi j) :
    ∃ s, simLoop (ctrlOf L P (fun _ => (lo, hi)) dt cfg scr) plant simDt endT env x0 (simCtrlInit m cfg.horizon.toNat o) = .ok s ∧
      s.k = ⌈endT / simDt⌉₊ ∧ Simulated plant simDt env (fun _ u => ∀ j, lo j ≤ u j ∧ u j ≤ hi j) x0 s := by
  obtain ⟨s, h1, h3, h4, -⟩ := simLoop_ok (C := ctrlOf L P (fun _ => (lo, hi)) dt cfg scr) (plant := plant) (endT := endT) (env := env)
    (x0 := x0) (c0 := simCtrlInit m cfg.horizon.toNat o) (I := CtrlOk lo hi cfg.horizon)
    (U := fun _ u => ∀ j, lo j ≤ u j ∧ u j ≤ hi j) hdt
    ⟨hb, by simp only [simCtrlInit, List.length_replicate]; omega, fun q hq => by rw [(List.mem_replicate.1 hq).2]⟩
    (fun ref t x c hc => timerCallback_ok hN hf hm h2 (fun j => (hb j).1.trans (hb j).2) ref t x c hc) (fun c _ hc => hc.bounds)
  exact ⟨s, h1, h3, h4⟩

end Nmpc.DDP
